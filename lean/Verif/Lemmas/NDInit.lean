import Verif.Lemmas.NDLoop

/-!
The constructor of the non-degenerate object.
-/

namespace Verif

open Spec MvPolynomial

variable {R : Type} [CommRing R]

theorem hilbertND_eq (d n k : Nat) :
    hilbertND d n k = ((∑ i ∈ Finset.range d, (Polynomial.X : Polynomial ℤ) ^ i) ^ (n + 1)).coeff k := by
  have hpol : ∀ j, (if j < d then (1 : Int) else 0)
      = (∑ i ∈ Finset.range d, (Polynomial.X : Polynomial ℤ) ^ i).coeff j := by
    intro j
    simp only [Polynomial.finsetSum_coeff, Polynomial.coeff_X_pow]
    rw [Finset.sum_ite_eq]
    simp only [Finset.mem_range]
  have : ∀ m k, (Nat.rec (fun k => if k = 0 then 1 else 0)
    (fun _ H => polyMul H (fun k => if k < d then 1 else 0)) m : Nat → Int) k
      = ((∑ i ∈ Finset.range d, (Polynomial.X : Polynomial ℤ) ^ i) ^ m).coeff k := by
    intro m
    induction m with
    | zero => intro k; simp [Polynomial.coeff_one]
    | succ m ih =>
      intro k
      rw [pow_succ, Polynomial.coeff_mul, Finset.Nat.sum_antidiagonal_eq_sum_range_succ
        (fun a b => ((∑ i ∈ Finset.range d, (Polynomial.X : Polynomial ℤ) ^ i) ^ m).coeff a
          * (∑ i ∈ Finset.range d, (Polynomial.X : Polynomial ℤ) ^ i).coeff b)]
      show polyMul _ _ k = _
      rw [polyMul, sumLoop_eq_sum]
      refine Finset.sum_congr rfl (fun j _ => ?_)
      rw [ih, hpol]
  exact this (n + 1) k

theorem hilbertND_zero {d : Nat} (n : Nat) (hd : 1 ≤ d) : hilbertND d n 0 = 1 := by
  rw [hilbertND_eq, Polynomial.coeff_zero_eq_eval_zero, Polynomial.eval_pow, Polynomial.eval_finsetSum]
  obtain ⟨d, rfl⟩ : ∃ d', d = d' + 1 := ⟨d - 1, by omega⟩
  rw [Finset.sum_range_succ']
  simp

/-- The monomials appended by pass `i` of the basis loop. -/
def ndBlock (solve : Solver R) (D : DR R) (i : Nat) : List IVec :=
  match solveND solve D ((i : Int) * D.d), D.list ((i : Int) * D.d) with
  | .ok BU, .ok L => BU.1.map (fun b => L.getD b [])
  | _, _ => []

structure NDBlockOK (solve : Solver R) (D : DR R) (i : Nat) (b : List IVec) : Prop where
  nodup : b.Nodup
  tuple : ∀ t ∈ b, IsTuple (D.n + 1) ((i : Int) * D.d) t
  count : hilbertND D.d D.n (i * D.d) = b.length
  eq : ∀ B U L, solveND solve D ((i : Int) * D.d) = .ok (B, U) → D.list ((i : Int) * D.d) = .ok L →
    b = B.map (fun j => L.getD j [])

theorem initBasisND_ok {solve : Solver R} (hsolve : SolverOK solve) {D : DR R} (hD : DROk D)
    {basis : List IVec} (h : initBasisND solve D = .ok basis) :
    basis = (List.range (D.n + 1)).flatMap (ndBlock solve D) ∧
      ∀ i, i < D.n + 1 → NDBlockOK solve D i (ndBlock solve D i) := by
  have hd := hD.hd
  refine forRange_ok_inv (n := D.n + 1) (P := fun k acc =>
    acc = (List.range k).flatMap (ndBlock solve D) ∧
      ∀ i, i < k → NDBlockOK solve D i (ndBlock solve D i))
    ⟨rfl, fun i hi => by omega⟩ ?_ h
  rintro i acc acc' hi ⟨rfl, h2⟩ hstep
  have hlev0 : (0 : Int) ≤ (i : Int) * D.d := by positivity
  have hlev1 : (i : Int) * D.d ≤ (D.n + 1) * D.d := by
    apply mul_le_mul_of_nonneg_right <;> omega
  obtain ⟨L, B, U, hL, eL, eU, hs, hlt⟩ := solveND_shape hsolve hD _ hlev0 hlev1
  have hmap : B.mapM (fun b => aget L b) = .ok (B.map (fun b => L.getD b [])) := by
    apply mapM_eq_ok
    intro b hb
    rw [aget_of_lt _ _ (hlt b hb), getD_getElem _ _ _ (hlt b hb)]
  have hblk : ndBlock solve D i = B.map (fun b => L.getD b []) := by
    rw [ndBlock, eU, eL]
  simp only [eU, eL, Res.bind_ok] at hstep
  rw [Res.bind_eq_ok] at hstep
  obtain ⟨_, hc, hstep⟩ := hstep
  rw [hmap, Res.bind_ok] at hstep
  have hc := of_decide_eq_true (check_eq_ok.1 hc)
  have hacc := Except.ok.inj hstep
  refine ⟨?_, fun j hj => ?_⟩
  · rw [← hacc, List.range_succ, List.flatMap_append, List.flatMap_singleton, hblk]
  · by_cases hji : j = i
    · subst hji
      refine ⟨?_, ?_, ?_, ?_⟩
      · rw [hblk]
        refine List.Nodup.map_on ?_ (hs.imp (fun h => Nat.ne_of_lt h))
        intro x hx y hy hxy
        exact hL.getD_inj (hlt x hx) (hlt y hy) hxy
      · intro t ht
        rw [hblk] at ht
        obtain ⟨b, hb, rfl⟩ := List.mem_map.1 ht
        exact hL.tuple (hlt b hb)
      · rw [hblk, List.length_map, ← hc]
      · intro B' U' L' e1 e2
        rw [eU] at e1
        rw [eL] at e2
        have h3 := congrArg Prod.fst (Except.ok.inj e1)
        have h4 := Except.ok.inj e2
        simp only at h3
        rw [hblk, ← h4, h3]
    · exact h2 j (by omega)

/-- Everything the constructor establishes. -/
structure NDInitOK (solve : Solver R) (p : Nat) (f : MonMap R) (N : ND R) : Prop where
  base : InitOK solve p f N.toDR
  nd : 1 ≤ N.n → NDOk solve N
  blocks : N.ndBasis = (List.range (N.n + 1)).flatMap (ndBlock solve N.toDR)
  block : ∀ i, i < N.n + 1 → NDBlockOK solve N.toDR i (ndBlock solve N.toDR i)
  count : N.ndBasis.length = N.d ^ N.n
  dict : N.ndDict = buildDict N.ndBasis
  nodup : N.ndBasis.Nodup

theorem initND_ok {solve : Solver R} (hsolve : SolverOK solve) {p : Nat} {f : MonMap R} {n d : Nat}
    (hf : WFPoly (n + 1) f) (hdeg : ∀ e ∈ f, deg e.1 = d)
    (hsize : ∀ l ≤ (n + 1) * d, (l + n).choose n < 2 ^ 63) {N : ND R}
    (h : ND.init solve p f = .ok N) : N.n = n ∧ N.d = d ∧ NDInitOK solve p f N := by
  rw [ND.init, Res.bind_eq_ok] at h
  obtain ⟨D, hD, h⟩ := h
  obtain ⟨e1, e2, hI⟩ := init_ok hsolve hf hdeg hsize hD
  rw [Res.bind_eq_ok] at h
  obtain ⟨⟨B, U⟩, htop, h⟩ := h
  rw [Res.bind_eq_ok] at h
  obtain ⟨_, hc, h⟩ := h
  have hc := of_decide_eq_true (check_eq_ok.1 hc)
  have hB : B = [] := List.length_eq_zero_iff.1 hc
  subst hB
  rw [Res.bind_eq_ok] at h
  obtain ⟨basis, hb, h⟩ := h
  rw [Res.bind_eq_ok] at h
  obtain ⟨_, hlen, h⟩ := h
  have hlen := of_decide_eq_true (check_eq_ok.1 hlen)
  have hN := Except.ok.inj h
  subst hN
  have hd := hI.ok.hd
  obtain ⟨hbl, hblk⟩ := initBasisND_ok hsolve hI.ok hb
  have hdeg' : ∀ t ∈ basis, ∃ l : Nat, l ≤ D.n ∧ IsTuple (D.n + 1) ((l : Int) * D.d) t := by
    intro t ht
    rw [hbl, List.mem_flatMap] at ht
    obtain ⟨i, hi, ht⟩ := ht
    have hi := List.mem_range.1 hi
    exact ⟨i, by omega, (hblk i hi).tuple t ht⟩
  have hnodup : basis.Nodup := by
    rw [hbl, List.nodup_flatMap]
    refine ⟨fun i hi => (hblk i (List.mem_range.1 hi)).nodup, ?_⟩
    refine (List.nodup_range (n := D.n + 1)).pairwise_of_forall_ne ?_
    intro i hi j hj hij t hti htj
    have h1 := ((hblk i (List.mem_range.1 hi)).tuple t hti).2.2
    have h2 := ((hblk j (List.mem_range.1 hj)).tuple t htj).2.2
    rw [h1] at h2
    apply hij
    have h3 := mul_right_cancel₀ (by omega : (D.d : Int) ≠ 0) h2
    exact_mod_cast h3
  refine ⟨e1, e2, hI, ?_, hbl, hblk, hlen, rfl, hnodup⟩
  intro hn
  refine ⟨hI.ok, hn, rfl, hnodup, hdeg', ?_, ?_, ⟨U, htop⟩⟩
  · have h0 := hblk 0 (by omega)
    have hone : (ndBlock solve D 0).length = 1 := by
      have := h0.count
      rw [Nat.zero_mul, hilbertND_zero _ (by omega)] at this
      exact_mod_cast this.symm
    obtain ⟨t, ht⟩ := List.length_eq_one_iff.1 hone
    have hbt : basis = t :: ((List.range D.n).map Nat.succ).flatMap (ndBlock solve D) := by
      rw [hbl, List.range_succ_eq_map, List.flatMap_cons, ht]; rfl
    have htup := h0.tuple t (by rw [ht]; simp)
    rw [Nat.cast_zero, zero_mul] at htup
    refine ⟨by rw [hbt]; simp, ?_⟩
    show basis.getD 0 [] = _
    rw [hbt]
    show t = _
    rw [List.eq_replicate_iff]
    refine ⟨htup.1, fun x hx => ?_⟩
    have hs : t.sum = 0 := htup.2.2
    have hle : x ≤ t.sum := List.single_le_sum htup.2.1 x hx
    have := htup.2.1 x hx
    omega
  · intro k hk B U L e1 e2 b hb
    have hk : k ≤ D.n := hk
    have := (hblk k (by omega)).eq B U L e1 e2
    show L.getD b [] ∈ basis
    rw [hbl, List.mem_flatMap]
    exact ⟨k, List.mem_range.2 (by omega), by rw [this]; exact List.mem_map.2 ⟨b, hb, rfl⟩⟩

theorem Spec.ConstructedND.init {solve : Solver R} {p n d : Nat} {f : MonMap R} {N : ND R}
    (h : ConstructedND solve p f n d N) : N.n = n ∧ N.d = d ∧ NDInitOK solve p f N :=
  initND_ok h.solver h.wf h.hom h.size h.built

end Verif
