import Verif.Lemmas.JacSyzygy
import Verif.Lemmas.DeRhamInit
import Verif.Lemmas.Padic

/-!
Over `Z/p^N`, with the solver of `solve_system_padic`, the cohomology basis is independent modulo the
relations.
-/

namespace Verif

open Spec MvPolynomial

/-! ### Divisibility in `Z/p^N` -/

section padic

variable {p N : ℕ} [Fact p.Prime]

/-- Reduction modulo `p`. -/
noncomputable def redMod (p N : ℕ) (hN : 1 ≤ N) : ZMod (p ^ N) →+* ZMod p :=
  ZMod.castHom (dvd_pow_self p (by omega)) (ZMod p)

theorem redMod_val (hN : 1 ≤ N) (x : ZMod (p ^ N)) : redMod p N hN x = (x.val : ZMod p) := by
  have : NeZero (p ^ N) := ⟨pow_ne_zero _ (Fact.out (p := p.Prime)).ne_zero⟩
  rw [redMod, ZMod.castHom_apply, ZMod.natCast_val]

theorem dvd_of_redMod (hN : 1 ≤ N) {x : ZMod (p ^ N)} (h : redMod p N hN x = 0) : (p : ZMod (p ^ N)) ∣ x := by
  have : NeZero (p ^ N) := ⟨pow_ne_zero _ (Fact.out (p := p.Prime)).ne_zero⟩
  rw [redMod_val, ZMod.natCast_eq_zero_iff] at h
  obtain ⟨k, hk⟩ := h
  refine ⟨(k : ZMod (p ^ N)), ?_⟩
  rw [← ZMod.natCast_zmod_val x, hk]; push_cast; rfl

theorem dvd_of_mul_eq_zero (hN : 1 ≤ N) {x : ZMod (p ^ N)} (h : (p : ZMod (p ^ N)) * x = 0) :
    ((p ^ (N - 1) : ℕ) : ZMod (p ^ N)) ∣ x := by
  have hp : 0 < p := (Fact.out (p := p.Prime)).pos
  have : NeZero (p ^ N) := ⟨pow_ne_zero _ (Fact.out (p := p.Prime)).ne_zero⟩
  rw [← ZMod.natCast_zmod_val x, ← Nat.cast_mul, ZMod.natCast_eq_zero_iff] at h
  obtain ⟨M, rfl⟩ : ∃ M, N = M + 1 := ⟨N - 1, by omega⟩
  have h' : p * p ^ M ∣ p * x.val := by rw [← pow_succ']; exact h
  obtain ⟨k, hk⟩ := Nat.dvd_of_mul_dvd_mul_left hp h'
  refine ⟨(k : ZMod (p ^ (M + 1))), ?_⟩
  rw [← ZMod.natCast_zmod_val x, hk, Nat.add_sub_cancel]; push_cast; rfl

/-- Lift a value modulo `p`. -/
theorem redMod_surj (hN : 1 ≤ N) : Function.Surjective (redMod p N hN) :=
  ZMod.castHom_surjective _

/-! ### The Jacobian ring is flat -/

variable {n : ℕ} {g : Fin (n + 1) → MvPolynomial (Fin (n + 1)) (ZMod (p ^ N))} {M : ℕ}

theorem lift_antisymm (hN : 1 ≤ N)
    (A : Fin (n + 1) → Fin (n + 1) → MvPolynomial (Fin (n + 1)) (ZMod p))
    (h1 : ∀ i j, A i j = - A j i) (h2 : ∀ i, A i i = 0) :
    ∃ A' : Fin (n + 1) → Fin (n + 1) → MvPolynomial (Fin (n + 1)) (ZMod (p ^ N)),
      (∀ i j, A' i j = - A' j i) ∧ (∀ i, A' i i = 0) ∧ ∀ i j, map (redMod p N hN) (A' i j) = A i j := by
  choose L hL using map_surjective (σ := Fin (n + 1)) (redMod p N hN) (redMod_surj hN)
  refine ⟨fun i j => if i < j then L (A i j) else if j < i then - L (A j i) else 0, ?_, ?_, ?_⟩
  · intro i j
    rcases lt_trichotomy i j with h | h | h
    · simp [h, not_lt_of_gt h]
    · simp [h]
    · simp [h, not_lt_of_gt h]
  · intro i; simp
  · intro i j
    rcases lt_trichotomy i j with h | h | h
    · simp [h, hL]
    · simp [h, h2]
    · simp only [not_lt_of_gt h, h, if_true, if_false, map_neg, hL]
      exact (h1 i j).symm

theorem dvd_poly (hN : 1 ≤ N) {Q : MvPolynomial (Fin (n + 1)) (ZMod (p ^ N))}
    (h : map (redMod p N hN) Q = 0) : ∃ Q', Q = C (p : ZMod (p ^ N)) * Q' := by
  have : C (p : ZMod (p ^ N)) ∣ Q := by
    rw [C_dvd_iff_dvd_coeff]
    intro a
    apply dvd_of_redMod hN
    rw [← coeff_map, h, coeff_zero]
  exact this

/-- If `p G` is in the ideal, `G` is up to a multiple of `p^(N-1)`. -/
theorem flat_step (hN : 1 ≤ N) (hM : ∀ i, X i ^ M ∈ Ideal.span (Set.range g))
    {G : MvPolynomial (Fin (n + 1)) (ZMod (p ^ N))} (hG : C (p : ZMod (p ^ N)) * G ∈ Ideal.span (Set.range g)) :
    ∃ Q, G - C ((p ^ (N - 1) : ℕ) : ZMod (p ^ N)) * Q ∈ Ideal.span (Set.range g) := by
  obtain ⟨H, hH⟩ : ∃ H : Fin (n + 1) → MvPolynomial (Fin (n + 1)) (ZMod (p ^ N)),
      ∑ i, H i * g i = C (p : ZMod (p ^ N)) * G := by
    rw [Ideal.span, Submodule.mem_span_range_iff_exists_fun] at hG
    exact hG
  set φ := map (σ := Fin (n + 1)) (redMod p N hN) with hφ
  have hp0 : φ (C (p : ZMod (p ^ N))) = 0 := by
    rw [hφ, map_C, map_natCast, CharP.cast_eq_zero, C_0]
  obtain ⟨A, h1, h2, h3⟩ := jac_syzygy (R := ZMod p) (M := M) (g := fun i => φ (g i)) (by
    intro i
    have := Ideal.mem_map_of_mem φ (hM i)
    rw [Ideal.map_span, map_pow, hφ, map_X, ← Set.range_comp] at this
    exact this) (fun i => φ (H i)) (by
    have := congrArg φ hH
    rw [map_mul, hp0, zero_mul, map_sum] at this
    rw [← this]
    exact Finset.sum_congr rfl (fun i _ => by rw [map_mul, mul_comm]))
  obtain ⟨A', h1', h2', h3'⟩ := lift_antisymm hN A h1 h2
  have hd : ∀ i, ∃ Q, H i - ∑ j, A' i j * g j = C (p : ZMod (p ^ N)) * Q := by
    intro i
    apply dvd_poly hN
    have e := h3 i
    rw [map_sub, map_sum]
    simp only [map_mul, h3']
    exact sub_eq_zero.2 e
  choose H' hH' using hd
  have hsum : C (p : ZMod (p ^ N)) * (G - ∑ i, H' i * g i) = 0 := by
    rw [mul_sub, ← hH]
    have e1 : C (p : ZMod (p ^ N)) * ∑ i, H' i * g i = ∑ i, H i * g i - ∑ i, ∑ j, A' i j * g j * g i := by
      rw [Finset.mul_sum, ← Finset.sum_sub_distrib]
      refine Finset.sum_congr rfl (fun i _ => ?_)
      rw [← mul_assoc, ← hH' i, sub_mul, Finset.sum_mul]
    have e2 : ∑ i, ∑ j, A' i j * g j * g i = 0 := by
      apply sum_antisymm
      · intro i j
        rw [h1' i j]; ring
      · intro i
        rw [h2' i]; ring
    rw [e1, e2, sub_zero, sub_self]
  have hdv : C ((p ^ (N - 1) : ℕ) : ZMod (p ^ N)) ∣ G - ∑ i, H' i * g i := by
    rw [C_dvd_iff_dvd_coeff]
    intro a
    apply dvd_of_mul_eq_zero hN
    rw [← coeff_C_mul, hsum, coeff_zero]
  obtain ⟨Q, hQ⟩ := hdv
  refine ⟨Q, ?_⟩
  rw [← hQ, sub_sub_cancel]
  exact Ideal.sum_mem _ (fun i _ => Ideal.mul_mem_left _ _ (Ideal.subset_span ⟨i, rfl⟩))

theorem flat_pow (hN : 1 ≤ N) (hM : ∀ i, X i ^ M ∈ Ideal.span (Set.range g)) (s : ℕ) (hs : s < N) :
    ∀ G : MvPolynomial (Fin (n + 1)) (ZMod (p ^ N)),
      C ((p : ZMod (p ^ N)) ^ s) * G ∈ Ideal.span (Set.range g) →
      ∃ Q, G - C (p : ZMod (p ^ N)) * Q ∈ Ideal.span (Set.range g) := by
  induction s with
  | zero =>
    intro G hG
    exact ⟨0, by simpa using hG⟩
  | succ s ih =>
    intro G hG
    rw [pow_succ', C_mul, mul_assoc] at hG
    obtain ⟨Q, hQ⟩ := flat_step hN hM hG
    have e : ((p ^ (N - 1) : ℕ) : ZMod (p ^ N)) = (p : ZMod (p ^ N)) ^ s * (p * (p : ZMod (p ^ N)) ^ (N - 2 - s)) := by
      rw [← pow_succ', ← pow_add, Nat.cast_pow]
      congr 1
      omega
    obtain ⟨Q', hQ'⟩ := ih (by omega) (G - C (p * (p : ZMod (p ^ N)) ^ (N - 2 - s)) * Q) (by
      rw [mul_sub, ← mul_assoc, ← C_mul, ← e]
      exact hQ)
    refine ⟨Q' + C ((p : ZMod (p ^ N)) ^ (N - 2 - s)) * Q, ?_⟩
    have e2 : G - C (p : ZMod (p ^ N)) * (Q' + C ((p : ZMod (p ^ N)) ^ (N - 2 - s)) * Q)
        = G - C (p * (p : ZMod (p ^ N)) ^ (N - 2 - s)) * Q - C (p : ZMod (p ^ N)) * Q' := by
      rw [C_mul]; ring
    rw [e2]
    exact hQ'

/-! ### Independence in one degree -/

/-- The solver `solve_system_padic` with precision `precision`. -/
def padicSolver (p N : ℕ) [Fact p.Prime] (la : LinAlg (ZMod p)) (flint : Bool) (precision : ℕ) :
    Solver (ZMod (p ^ N)) := fun T => solveSystemPadic la flint T precision

/-- The unit vectors of the solver are independent modulo `p`. -/
theorem padic_indep (hN : 1 ≤ N) {la : LinAlg (ZMod p)} (hla : LinAlgOK la) {flint : Bool}
    {T : CMat (ZMod (p ^ N))} {precision : ℕ} (hprec : N ≤ precision) {B : List ℕ}
    {U : CMat (ZMod (p ^ N))} (h : solveSystemPadic la flint T precision = .ok (B, U))
    (x β : ℕ → ZMod p)
    (hx : ∀ a, a < T.rows → ∑ l ∈ Finset.range T.cols, redMod p N hN (T.e a l) * x l
        + ∑ k ∈ Finset.range B.length, (if a = B.getD k 0 then β k else 0) = 0) :
    ∀ k, k < B.length → β k = 0 := by
  obtain ⟨B', U', e, hs, hZ⟩ := solveSystemPadic_ok la hla flint T precision hprec
  rw [h] at e
  cases e
  by_cases hc : 0 < T.cols
  · obtain ⟨V, hV⟩ := hZ hc
    obtain ⟨B1, U1, e1, -, -, -, hi⟩ := solveSystemZZp_ok la hla true (T.map (fun x => (x.val : ZMod p)))
    rw [hV] at e1
    cases e1
    refine hi x β ?_
    intro a ha
    have ha' : a < T.rows := ha
    refine Eq.trans ?_ (hx a ha')
    congr 1
    refine Finset.sum_congr rfl (fun l hl => ?_)
    have hl' : l < T.cols := Finset.mem_range.1 hl
    rw [redMod_val]
    simp only [CMat.map, CMat.mk', if_pos (And.intro ha' hl')]
  · have hc0 : T.cols = 0 := by omega
    intro k hk
    have hb : B.getD k 0 < T.rows := by
      rw [getD_getElem _ _ _ hk]; exact hs.lt _ (List.getElem_mem hk)
    have := hx (B.getD k 0) hb
    rw [hc0, Finset.range_zero, Finset.sum_empty, zero_add, Finset.sum_eq_single k] at this
    · simpa using this
    · intro j hj hne
      apply if_neg
      intro he
      have hj' := Finset.mem_range.1 hj
      rw [getD_getElem _ _ _ hk, getD_getElem _ _ _ hj'] at he
      have hnd : B.Nodup := hs.sorted.imp (fun h => Nat.ne_of_lt h)
      exact hne ((hnd.getElem_inj_iff.1 he).symm)
    · intro hh; exact absurd (Finset.mem_range.2 hk) hh

theorem bgetD_mem {B : List ℕ} {k : ℕ} (hk : k < B.length) : B.getD k 0 ∈ B := by
  rw [getD_getElem _ _ _ hk]; exact List.getElem_mem hk

/-- The combination of the monomials `L[B_0], L[B_1], ...`. -/
noncomputable def blockSum {R : Type} [CommRing R] (n : ℕ) (L : List IVec) (B : List ℕ) (c : ℕ → R) :
    MvPolynomial (Fin (n + 1)) R :=
  ∑ r ∈ Finset.range B.length, c r • xpow R (ev n (L.getD (B.getD r 0) []))

theorem coeff_blockSum {R : Type} [CommRing R] {n : ℕ} {l : ℤ} {L : List IVec} (hL : IsTable n l L)
    {B : List ℕ} (hB : ∀ b ∈ B, b < L.length) (c : ℕ → R) {a : ℕ} (ha : a < L.length) :
    coeff (expo (n + 1) (L.getD a [])) (blockSum n L B c)
      = ∑ k ∈ Finset.range B.length, (if a = B.getD k 0 then c k else 0) := by
  rw [blockSum, coeff_sum]
  refine Finset.sum_congr rfl (fun k hk => ?_)
  have hb := hB _ (bgetD_mem (Finset.mem_range.1 hk))
  rw [xpow_ev (hL.tuple hb).2.1, coeff_smul, coeff_monomial]
  by_cases h : a = B.getD k 0
  · rw [if_pos h, ← h, if_pos rfl, smul_eq_mul, mul_one]
  · rw [if_neg h, if_neg, smul_zero]
    intro e
    exact h (hL.getD_inj hb ha (expo_inj (hL.tuple hb).1 (hL.tuple ha).1 (hL.tuple hb).2.1
      (hL.tuple ha).2.1 e)).symm

/-- A combination of the solver's monomials in the ideal modulo `p` is 0 modulo `p`. -/
theorem block_modp (hN : 1 ≤ N) {l k : ℕ} {L S : List IVec} (hL : IsTable n l L)
    (hS : (k ≤ l ∧ IsTable n ((l : ℤ) - k) S) ∨ (l < k ∧ S = []))
    (hg : ∀ i, (g i).IsHomogeneous k) {T : CMat (ZMod (p ^ N))} (hTr : T.rows = L.length)
    (hTc : T.cols = (n + 1) * S.length)
    (hT : ∀ r (i : Fin (n + 1)) j, r < L.length → j < S.length →
      T.e r (i.val * S.length + j)
        = coeff (expo (n + 1) (L.getD r [])) (xpow (ZMod (p ^ N)) (ev n (S.getD j [])) * g i))
    {la : LinAlg (ZMod p)} (hla : LinAlgOK la) {flint : Bool} {precision : ℕ} (hprec : N ≤ precision)
    {B : List ℕ} {U : CMat (ZMod (p ^ N))} (h : solveSystemPadic la flint T precision = .ok (B, U))
    (hB : ∀ b ∈ B, b < L.length) (c : ℕ → ZMod (p ^ N)) (Q : MvPolynomial (Fin (n + 1)) (ZMod (p ^ N)))
    (hmem : blockSum n L B c - C (p : ZMod (p ^ N)) * Q ∈ Ideal.span (Set.range g)) :
    ∀ r, r < B.length → redMod p N hN (c r) = 0 := by
  obtain ⟨H, hH⟩ : ∃ H : Fin (n + 1) → MvPolynomial (Fin (n + 1)) (ZMod (p ^ N)),
      ∑ i, H i * g i = blockSum n L B c - C (p : ZMod (p ^ N)) * Q := by
    rw [Ideal.span, Submodule.mem_span_range_iff_exists_fun] at hmem
    exact hmem
  -- the components of degree `l`
  have hcomp : ∀ i, ∃ h : ℕ → ZMod (p ^ N), homogeneousComponent l (H i * g i) = combo n S h * g i := by
    intro i
    rw [component_mul (hg i)]
    rcases hS with ⟨hkl, hS⟩ | ⟨hkl, hS⟩
    · rw [if_pos hkl]
      have hS' : IsTable n ((l - k : ℕ) : ℤ) S := by rw [Nat.cast_sub hkl]; exact hS
      exact ⟨_, by rw [combo_coeff hS' (homogeneousComponent_isHomogeneous (l - k) (H i))]⟩
    · rw [if_neg (by omega)]
      exact ⟨fun _ => 0, by rw [hS]; simp [combo]⟩
  choose h' hh' using hcomp
  refine padic_indep hN hla hprec h
    (fun j => - redMod p N hN (if hj : j / S.length < n + 1 then h' ⟨j / S.length, hj⟩ (j % S.length) else 0))
    (fun r => redMod p N hN (c r)) ?_
  intro a ha
  rw [hTr] at ha
  have e1 := congrArg (fun P => coeff (expo (n + 1) (L.getD a [])) (homogeneousComponent l P)) hH
  simp only [map_sum, hh', coeff_sum] at e1
  have hdeg : (expo (n + 1) (L.getD a [])).degree = l := by
    have := sum_ev_tuple (hL.tuple ha)
    have e2 : ((∑ i, expo (n + 1) (L.getD a []) i : ℕ) : ℤ) = l := by
      rw [← this]; push_cast
      refine Finset.sum_congr rfl (fun i _ => ?_)
      rw [expo_apply, ev]
      exact Int.toNat_of_nonneg (ev_nonneg (hL.tuple ha) i)
    rw [Finsupp.degree_eq_sum]; exact_mod_cast e2
  rw [coeff_homogeneousComponent, if_pos hdeg, coeff_sub, coeff_blockSum hL hB c ha, coeff_C_mul] at e1
  have e3 : ∀ i : Fin (n + 1), coeff (expo (n + 1) (L.getD a [])) (combo n S (h' i) * g i)
      = ∑ j ∈ Finset.range S.length, T.e a (i.val * S.length + j) * h' i j := by
    intro i
    rw [combo, Finset.sum_mul, coeff_sum]
    refine Finset.sum_congr rfl (fun j hj => ?_)
    rw [smul_mul_assoc, coeff_smul, ← hT a i j ha (Finset.mem_range.1 hj), smul_eq_mul, mul_comm]
  have e4 := congrArg (redMod p N hN) e1
  simp only [e3, map_sum, map_sub, map_mul, map_natCast, CharP.cast_eq_zero, zero_mul, sub_zero] at e4
  have e5 : ∀ k, redMod p N hN (if a = B.getD k 0 then c k else 0)
      = if a = B.getD k 0 then redMod p N hN (c k) else 0 := by
    intro k
    split
    · rfl
    · exact map_zero _
  simp only [e5] at e4
  rw [← e4, hTc, ← sum_blocks, Finset.sum_range, ← Finset.sum_add_distrib]
  apply Finset.sum_eq_zero
  intro i _
  rw [← Finset.sum_add_distrib]
  apply Finset.sum_eq_zero
  intro j hj
  have hj' := Finset.mem_range.1 hj
  have hdiv : (i.val * S.length + j) / S.length = i.val := by
    rw [mul_comm, Nat.mul_add_div (by omega), Nat.div_eq_of_lt hj', add_zero]
  have hmod : (i.val * S.length + j) % S.length = j := by
    rw [mul_comm, Nat.mul_add_mod, Nat.mod_eq_of_lt hj']
  rw [dif_pos (by rw [hdiv]; exact i.isLt), hmod]
  have : (⟨(i.val * S.length + j) / S.length, by rw [hdiv]; exact i.isLt⟩ : Fin (n + 1)) = i :=
    Fin.ext hdiv
  rw [this]
  ring

/-- A combination of the solver's monomials in the ideal is 0. -/
theorem block_indep (hN : 1 ≤ N) {l k : ℕ} {L S : List IVec} (hL : IsTable n l L)
    (hS : (k ≤ l ∧ IsTable n ((l : ℤ) - k) S) ∨ (l < k ∧ S = []))
    (hg : ∀ i, (g i).IsHomogeneous k) (hM : ∀ i, X i ^ M ∈ Ideal.span (Set.range g))
    {T : CMat (ZMod (p ^ N))} (hTr : T.rows = L.length) (hTc : T.cols = (n + 1) * S.length)
    (hT : ∀ r (i : Fin (n + 1)) j, r < L.length → j < S.length →
      T.e r (i.val * S.length + j)
        = coeff (expo (n + 1) (L.getD r [])) (xpow (ZMod (p ^ N)) (ev n (S.getD j [])) * g i))
    {la : LinAlg (ZMod p)} (hla : LinAlgOK la) {flint : Bool} {precision : ℕ} (hprec : N ≤ precision)
    {B : List ℕ} {U : CMat (ZMod (p ^ N))} (h : solveSystemPadic la flint T precision = .ok (B, U))
    (hB : ∀ b ∈ B, b < L.length) (c : ℕ → ZMod (p ^ N))
    (hmem : blockSum n L B c ∈ Ideal.span (Set.range g)) :
    ∀ r, r < B.length → c r = 0 := by
  have key : ∀ s, s ≤ N → ∀ r, r < B.length → (p : ZMod (p ^ N)) ^ s ∣ c r := by
    intro s
    induction s with
    | zero => intro _ r _; rw [pow_zero]; exact one_dvd _
    | succ s ih =>
      intro hs
      have h1 : ∀ r, ∃ x, r < B.length → c r = (p : ZMod (p ^ N)) ^ s * x := by
        intro r
        by_cases hr : r < B.length
        · obtain ⟨x, hx⟩ := ih (by omega) r hr
          exact ⟨x, fun _ => hx⟩
        · exact ⟨0, fun h => absurd h hr⟩
      choose c' hc' using h1
      have e : blockSum n L B c = C ((p : ZMod (p ^ N)) ^ s) * blockSum n L B c' := by
        rw [blockSum, blockSum, Finset.mul_sum]
        refine Finset.sum_congr rfl (fun r hr => ?_)
        rw [hc' r (Finset.mem_range.1 hr), mul_smul, smul_eq_C_mul]
      rw [e] at hmem
      obtain ⟨Q, hQ⟩ := flat_pow hN hM s (by omega) _ hmem
      intro r hr
      obtain ⟨y, hy⟩ := dvd_of_redMod hN (block_modp hN hL hS hg hTr hTc hT hla hprec h hB c' Q hQ r hr)
      exact ⟨y, by rw [hc' r hr, hy, pow_succ, mul_assoc]⟩
  intro r hr
  obtain ⟨x, hx⟩ := key N (le_refl _) r hr
  rw [hx, ← Nat.cast_pow, ZMod.natCast_self, zero_mul]

end padic

end Verif
