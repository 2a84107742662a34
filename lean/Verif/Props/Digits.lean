import Verif.Lemmas.Digits
import Verif.Lemmas.TwoPoints
import Verif.Props.Precision
import Verif.Props.Zeta

/-!
Property C74: which digits the Frobenius functions return.  After the exact division by `p^e` the entries are written with
`K - e` digits, and these are determined: the two routines return equal matrices, and lowering the precision takes digits away.
-/

namespace Verif

open Spec MvPolynomial

section

variable {p K K' : ℕ} [hprime : Fact p.Prime]

/-- **C74 (columns).**  Every variant of `frob_J` and `frob_ND`, for every object with a prime `p` and any table of powers: if it
returns, then the entries of the column are below `p^(K-e)`, `e` the number of digits divided away. -/
theorem C74_columns {solve : Solver (ZMod (p ^ K))} {N : ND (ZMod (p ^ K))} (hn : 1 ≤ N.n) (T : List (MonMap (ZMod (p ^ K))))
    {coord prec : ℕ} {ei : IVec} (hc : N.basis[coord]? = some ei)
    (r : CVec (ZMod (p ^ K)) × List (MonMap (ZMod (p ^ K)))) (i : ℕ) (hi : i < r.1.len) :
    (∀ var, frobFun var solve N.toDR p T coord prec = .ok r →
      (r.1.e i).val < p ^ (K - digitsLost p N.n (poleOrder N.n N.d ei) prec)) ∧
    (∀ kind, frobNDZ solve N p kind T coord prec = .ok r →
      (r.1.e i).val < p ^ (K - digitsLost p N.n (poleOrder N.n N.d ei) prec)) ∧
    (∀ batched, frobNDP solve N p batched T coord prec = .ok r →
      (r.1.e i).val < p ^ (K - digitsLost p N.n (poleOrder N.n N.d ei) prec)) ∧
    (frobNDFlint solve N p T coord prec = .ok r →
      (r.1.e i).val < p ^ (K - digitsLost p N.n (poleOrder N.n N.d ei) prec)) := by
  refine ⟨fun var h => frobFun_range hprime.out hn hc h i hi, fun kind h => frobFunND_range hprime.out hn hc h i hi,
    fun b h => frobFunND_range hprime.out hn hc h i hi, fun h => ?_⟩
  rw [frobNDFlint_eq] at h
  exact frobFunND_range hprime.out hn hc h i hi

/-- **C74 (range).**  The matrices returned by `frob_matrix_J` and `frob_matrix_ND` are written with the digits left, whatever the
table of powers and the order of the loop. -/
theorem C74_range {solve : Solver (ZMod (p ^ K))} {p' n d : ℕ} {f : MonMap (ZMod (p ^ K))} (hK : 1 ≤ K) (hn : 1 ≤ n)
    {T : List (MonMap (ZMod (p ^ K)))} (hT : Reached n f T) (pre : Bool) {order : List ℕ} (M : List ℤ)
    (r : CMat (ZMod (p ^ K)) × List (MonMap (ZMod (p ^ K)))) :
    (∀ D : DR (ZMod (p ^ K)), Constructed solve p' f n d D → order.Perm (List.range D.basis.length) →
      (∀ b Ni, b ∈ D.basis → M[poleOrder n d b - 1]? = some Ni → 0 < Ni → n / p ≤ poleOrder n d b + Ni.toNat - 1) →
      frobMatrixJ solve D p pre order T M = .ok r → InDigits n d D.basis M r.1.e) ∧
    (∀ D : ND (ZMod (p ^ K)), ConstructedND solve p' f n d D → order.Perm (List.range D.basis.length) →
      frobMatrixND solve D p pre order T M = .ok r → InDigits n d D.basis M r.1.e) := by
  have hnt := nontrivial_pow (p := p) hK
  refine ⟨fun D hC ho hhigh h i b Ni hb hNi hpos k hk => ?_, fun D hC ho h i b Ni hb hNi hpos k hk => ?_⟩
  · obtain ⟨v, T', h1, h2, h3⟩ := (((C33_columns (p := p) hC hn hT pre ho M hhigh).1 r h).2.2.2 i b Ni hb hNi).2 hpos
    obtain ⟨rfl, rfl, -⟩ := hC.init
    rw [h3 k]
    exact frobFun_range hprime.out hn hb h1 k (by rw [h2]; exact hk)
  · obtain ⟨v, T', h1, h2, h3⟩ := (((C51_columns (p := p) hC hn hT pre ho M).1 r h).2.2.2 i b Ni hb hNi).2 hpos
    obtain ⟨rfl, rfl, -⟩ := hC.init
    rw [h3 k]
    rw [frobNDFlint_eq] at h1
    exact frobFunND_range hprime.out hn hb h1 k (by rw [h2]; exact hk)

/-- **C74 (uniqueness).**  For an object of the constructor only one matrix is a Frobenius matrix written with the digits left. -/
theorem C74_unique (hK : 1 ≤ K) {la : LinAlg (ZMod p)} (hla : LinAlgOK la) {flint : Bool} {prec : ℕ} (hprec : K ≤ prec)
    {q n d : ℕ} {f : MonMap (ZMod (p ^ K))} {D : DR (ZMod (p ^ K))} (hC : Constructed (padicSolver p K la flint prec) q f n d D)
    {M : List ℤ} {Φ Ψ : ℕ → ℕ → ZMod (p ^ K)} (hΦ : IsFrobenius (toPoly (n + 1) f) d p D.basis M Φ)
    (hΨ : IsFrobenius (toPoly (n + 1) f) d p D.basis M Ψ) (hΦ' : InDigits n d D.basis M Φ) (hΨ' : InDigits n d D.basis M Ψ)
    (i k : ℕ) (hi : i < D.basis.length) (hk : k < D.basis.length) : Φ k i = Ψ k i := by
  have hb : D.basis[i]? = some D.basis[i] := List.getElem?_eq_getElem hi
  obtain ⟨N1, b1, b2, b3⟩ := hΦ i _ hb
  obtain ⟨N2, c1, c2, c3⟩ := hΨ i _ hb
  obtain rfl : N2 = N1 := Option.some.inj (c1.symm.trans b1)
  rcases le_or_gt N2 0 with h0 | h0
  · rw [b2 h0 k hk, c2 h0 k hk]
  · exact eq_of_digits hprime.out (hΦ' i _ N2 hb b1 h0 k hk) (hΨ' i _ N2 hb b1 h0 k hk)
      (C66_column_unique hK hla hprec hC (b3 h0) (c3 h0) k hk)

/-- Coordinates of the series are unique. -/
theorem coords_unique (hK : 1 ≤ K) {la : LinAlg (ZMod p)} (hla : LinAlgOK la) {flint : Bool} {prec : ℕ} (hprec : K ≤ prec)
    {q n d : ℕ} {f : MonMap (ZMod (p ^ K))} {D : DR (ZMod (p ^ K))} (hC : Constructed (padicSolver p K la flint prec) q f n d D)
    {m N : ℕ} {b : Fin (n + 1) → ℤ} {c c' : ℕ → ZMod (p ^ K)} (h : SeriesCoords (toPoly (n + 1) f) d p D.basis m N b c)
    (h' : SeriesCoords (toPoly (n + 1) f) d p D.basis m N b c') (r : ℕ) (hr : r < D.basis.length) : c' r = c r := by
  have hdiff : combo n D.basis (fun i => c' i - c i) ∈ scaledExact (toPoly (n + 1) f) d := by
    rw [combo_sub]
    have := Submodule.sub_mem _ h h'
    rwa [show ∀ s : MvPolynomial (Fin (n + 1)) (ZMod (p ^ K)), s - combo n D.basis c - (s - combo n D.basis c') =
      combo n D.basis c' - combo n D.basis c by intro s; abel] at this
  rw [scaledExact_eq] at hdiff
  exact sub_eq_zero.1 (C25_basis_independent hK la hla flint prec hprec hC _ hdiff r hr)

/-- The division at the end is exact if there is a column. -/
theorem scale_of_column (hK : 1 ≤ K) {la : LinAlg (ZMod p)} (hla : LinAlgOK la) {flint : Bool} {prec : ℕ} (hprec : K ≤ prec)
    {q n d : ℕ} (hn : 1 ≤ n) {f : MonMap (ZMod (p ^ K))} {D : DR (ZMod (p ^ K))}
    (hC : Constructed (padicSolver p K la flint prec) q f n d D)
    {m N : ℕ} {b : Fin (n + 1) → ℤ} {F : CVec (ZMod (p ^ K))} (hl : F.len = D.basis.length) {c : ℕ → ZMod (p ^ K)}
    (hc : SeriesCoords (toPoly (n + 1) f) d p D.basis m N b c)
    (hF : ∀ k, k < D.basis.length → F.e k = ((poleOrder n d (D.basis.getD k []) - 1).factorial : ZMod (p ^ K)) * c k)
    (h : ∃ G, FrobColumn (toPoly (n + 1) f) d p D.basis m N b G) : ∃ F', frobScale p n (p * (m + N - 1) - 1) F = .ok F' := by
  obtain ⟨G, c', h1, h2⟩ := h
  refine frobScale_returns hprime.out hn F (fun i hi => ⟨G i, ?_⟩)
  rw [hl] at hi
  have h3 := h2 i hi
  rw [frobFact] at h3
  rw [h3, hF i hi, coords_unique hK hla hprec hC hc h1 i hi, Nat.cast_mul, mul_assoc]

/-- **C74 (when the functions return).**  For every object of the constructor, every `loop`, every table of powers left by earlier calls: `frob_J`
returns exactly if there is a Frobenius column modulo `p^K`, that is, if the coordinates of the series can be divided; the only other
outcome is the failed assertion.  Same restrictions as C47. -/
theorem C74_returns_J_partial (hK : 1 ≤ K) {la : LinAlg (ZMod p)} (hla : LinAlgOK la) {flint : Bool} {prec : ℕ} (hprec : K ≤ prec)
    {q n d : ℕ} {f : MonMap (ZMod (p ^ K))} {D : DR (ZMod (p ^ K))}
    (hC : Constructed (padicSolver p K la flint prec) q f n d D) (hn : 1 ≤ n) (kind : LoopKind) (coord N : ℕ)
    (ei : IVec) (hc : D.basis[coord]? = some ei) (hN : 1 ≤ N) (hlow : n / p ≤ poleOrder n d ei) (hfit : TermsFit n N)
    {T : List (MonMap (ZMod (p ^ K)))} (hT : Reached n f T) :
    (∃ r, frobFun (varZ (padicSolver p K la flint prec) D p kind) (padicSolver p K la flint prec) D p T coord N = .ok r) ↔
      ∃ F, FrobColumn (toPoly (n + 1) f) d p D.basis (poleOrder n d ei) N (ev n ei) F := by
  obtain ⟨powers, hpow⟩ := hT
  obtain ⟨e1, e2, hI⟩ := hC.init
  have hm := basis_pole hI.basis (by have := hI.ok.hd; omega) hc
  rw [e1, e2] at hm
  have hb : ∀ i j, j ≤ i → i < N → i.choose j < 2 ^ 63 := fun i j hj hi => hfit.choose hn hj (by omega)
  have hb' : ∀ j, j < N → poleOrder n d ei + j ≤ n / p → (djm (poleOrder n d ei) N j).natAbs < 2 ^ 63 :=
    fun j hj _ => hfit _ j hm.1 hm.2.1 (by omega)
  constructor
  · rintro ⟨r, hr⟩
    exact ⟨_, ((C47_frob_J_partial hK hC hn kind coord N ei hc hN hlow hb hb' powers T hpow).1 r hr).2.2⟩
  · intro hG
    obtain ⟨T2, h2⟩ := (show Reached n f T from ⟨powers, hpow⟩).compute hC.wf hC.hom ((N : ℤ) - 1)
    obtain ⟨F, a1, a2, c, a3, a4⟩ := C47_frob_J_sum_partial hK hC hn kind coord N ei hc hN hlow hb hb' (powers ++ [(N : ℤ) - 1])
      (by simp) T2 (by rw [List.foldlM_append, hpow, Res.bind_ok, List.foldlM_cons, h2]; rfl)
    obtain ⟨F', hF'⟩ := scale_of_column hK hla hprec hn hC a2 a3 a4 hG
    rw [frobFun_eq hN hc (by rw [hI.f_eq]; exact h2), a1, Res.bind_ok, e1, e2, poleOrder_sumVec, hF']
    exact ⟨_, rfl⟩

/-- **C74 (when the functions return, `frob_ND`).** -/
theorem C74_returns_ND_partial (hK : 1 ≤ K) {la : LinAlg (ZMod p)} (hla : LinAlgOK la) {flint : Bool} {precision : ℕ}
    (hprec : K ≤ precision) {q n d : ℕ} {f : MonMap (ZMod (p ^ K))} {D : ND (ZMod (p ^ K))}
    (hC : ConstructedND (padicSolver p K la flint precision) q f n d D) (hn : 1 ≤ n)
    (coord N : ℕ) (ei : IVec) (hc : D.basis[coord]? = some ei) (hN : 1 ≤ N) (hfit : TermsFit n N)
    {T : List (MonMap (ZMod (p ^ K)))} (hT : Reached n f T) :
    (∀ kind, (∃ r, frobNDZ (padicSolver p K la flint precision) D p kind T coord N = .ok r) ↔
      ∃ F, FrobColumn (toPoly (n + 1) f) d p D.basis (poleOrder n d ei) N (ev n ei) F) ∧
    (FlintBatchOK (p ^ K) p n d (padicSolver p K la flint precision) D →
      ((∃ r, frobNDFlint (padicSolver p K la flint precision) D p T coord N = .ok r) ↔
        ∃ F, FrobColumn (toPoly (n + 1) f) d p D.basis (poleOrder n d ei) N (ev n ei) F)) := by
  obtain ⟨powers, hpow⟩ := hT
  obtain ⟨e1, e2, hI⟩ := hC.init
  have hm := basis_pole hI.base.basis (by have := hI.base.ok.hd; omega) hc
  have hd0 : 0 < d := by have := hI.base.ok.hd; omega
  rw [e1, e2] at hm
  have hb : ∀ j, j < N → (djm (poleOrder n d ei) N j).natAbs < 2 ^ 63 :=
    fun j hj => hfit _ j hm.1 hm.2.1 (by omega)
  have key : ∀ kind, (∃ r, frobNDZ (padicSolver p K la flint precision) D p kind T coord N = .ok r) ↔
      ∃ F, FrobColumn (toPoly (n + 1) f) d p D.basis (poleOrder n d ei) N (ev n ei) F := by
    intro kind
    constructor
    · rintro ⟨r, hr⟩
      exact ⟨_, ((C49_frob_ND_ZZ hK hC hn kind coord N ei hc hN hb powers T hpow).1 r hr).2.2⟩
    · intro hG
      obtain ⟨T2, h2⟩ := (show Reached n f T from ⟨powers, hpow⟩).compute hC.wf hC.hom ((N : ℤ) - 1)
      obtain ⟨F, a1, a2, c, a3, a4⟩ := C49_frob_ND_sum hK hC hn coord N ei hc hN hb (powers ++ [(N : ℤ) - 1])
        (by simp) T2 (by rw [List.foldlM_append, hpow, Res.bind_ok, List.foldlM_cons, h2]; rfl)
        (varNDZ (padicSolver p K la flint precision) D p kind) (Or.inl ⟨kind, rfl⟩)
      obtain ⟨F', hF'⟩ := scale_of_column hK hla hprec hn (C45_base_ND hC) a2 a3 a4 hG
      rw [frobNDZ, frobFunND_eq hN hc (by omega) hprime.out.pos (by rw [hI.base.f_eq]; exact h2), e1, e2, a1, Res.bind_ok, hF']
      exact ⟨_, rfl⟩
  refine ⟨key, fun hfl => ?_⟩
  rw [(C49_variants_agree hK la hla flint precision hprec hC hn coord N ei hc hN hb powers T hpow .poly).2.2 hfl]
  exact key .poly

/-- **C74 (when the matrices are returned).**  `frob_matrix_J` for an object with `n < 2 p`, and `frob_matrix_ND`: they return exactly if
the number of entries of `N` is right and there is a Frobenius matrix modulo `p^K`. -/
theorem C74_returns_matrix_partial (hK : 1 ≤ K) {la : LinAlg (ZMod p)} (hla : LinAlgOK la) {flint : Bool} {precision : ℕ}
    (hprec : K ≤ precision) {q n d : ℕ} {f : MonMap (ZMod (p ^ K))} (hn : 1 ≤ n)
    {T : List (MonMap (ZMod (p ^ K)))} (hT : Reached n f T) (pre : Bool) {order : List ℕ} {M : List ℤ}
    (hM : ∀ x ∈ M, TermsFit n x) :
    (∀ D : DR (ZMod (p ^ K)), Constructed (padicSolver p K la flint precision) q f n d D →
      order.Perm (List.range D.basis.length) → n < 2 * p →
      ((∃ r, frobMatrixJ (padicSolver p K la flint precision) D p pre order T M = .ok r) ↔
        M.length = n ∧ ∃ Φ, IsFrobenius (toPoly (n + 1) f) d p D.basis M Φ)) ∧
    (∀ D : ND (ZMod (p ^ K)), ConstructedND (padicSolver p K la flint precision) q f n d D →
      order.Perm (List.range D.basis.length) → FlintBatchOK (p ^ K) p n d (padicSolver p K la flint precision) D →
      ((∃ r, frobMatrixND (padicSolver p K la flint precision) D p pre order T M = .ok r) ↔
        M.length = n ∧ ∃ Φ, IsFrobenius (toPoly (n + 1) f) d p D.basis M Φ)) := by
  have hnt := nontrivial_pow (p := p) hK
  refine ⟨fun D hC ho hn2 => ?_, fun D hC ho hfl => ?_⟩
  · have hdiv : n / p ≤ 1 := by
      have := (Nat.div_lt_iff_lt_mul hprime.out.pos).2 hn2
      omega
    have hpole : ∀ b ∈ D.basis, 1 ≤ poleOrder n d b := by
      intro b hb
      obtain ⟨i, hi⟩ := List.mem_iff_getElem?.1 hb
      obtain ⟨e1, e2, hI⟩ := hC.init
      have := (basis_pole hI.basis (by have := hI.ok.hd; omega) hi).1
      rwa [e1, e2] at this
    have hcol := (C33_columns (p := p) hC hn hT pre ho M (fun b Ni hb _ hp => by have := hpole b hb; omega)).2
    constructor
    · rintro ⟨r, hr⟩
      exact ⟨(hcol.1 ⟨r, hr⟩).1, _, ((C64_frob_matrix_J_partial (p := p) hK hC hn
        (fun b hb => by have := hpole b hb; omega) hT pre ho M hM).1 r hr).2.2⟩
    · rintro ⟨hl, Φ, hΦ⟩
      refine hcol.2 ⟨hl, fun i b Ni hb hNi hpos => ?_⟩
      obtain ⟨N1, b1, -, b3⟩ := hΦ i b hb
      obtain rfl : N1 = Ni := Option.some.inj (b1.symm.trans hNi)
      refine (C74_returns_J_partial hK hla hprec hC hn .poly i N1.toNat b hb (by omega)
        (by have := hpole b (List.mem_of_getElem? hb); omega) ?_ hT).2 ⟨_, b3 hpos⟩
      rw [Int.toNat_of_nonneg hpos.le]
      exact hM _ (List.mem_of_getElem? hNi)
  · have hcol := (C51_columns (p := p) hC hn hT pre ho M).2
    constructor
    · rintro ⟨r, hr⟩
      exact ⟨(hcol.1 ⟨r, hr⟩).1, _, ((C64_frob_matrix_ND_partial (p := p) hK hC hn hfl hT pre ho M hM).1 r hr).2.2⟩
    · rintro ⟨hl, Φ, hΦ⟩
      refine hcol.2 ⟨hl, fun i b Ni hb hNi hpos => ?_⟩
      obtain ⟨N1, b1, -, b3⟩ := hΦ i b hb
      obtain rfl : N1 = Ni := Option.some.inj (b1.symm.trans hNi)
      refine ((C74_returns_ND_partial hK hla hprec hC hn i N1.toNat b hb (by omega) ?_ hT).2 hfl).2 ⟨_, b3 hpos⟩
      rw [Int.toNat_of_nonneg hpos.le]
      exact hM _ (List.mem_of_getElem? hNi)

/-- **C74 (the two routines).**  For every non-degenerate object with `n < 2 p`, and numbers of terms whose coefficients fit:
`frob_matrix_J`, called on the base class, returns exactly if `frob_matrix_ND` does, with any tables and any order of the parallel loops,
and then they return equal matrices, also if digits are lost in the exact division. -/
theorem C74_J_ND_partial (hK : 1 ≤ K) {la : LinAlg (ZMod p)} (hla : LinAlgOK la) {flint : Bool} {precision : ℕ}
    (hprec : K ≤ precision) {q n d : ℕ} {f : MonMap (ZMod (p ^ K))} {D : ND (ZMod (p ^ K))}
    (hC : ConstructedND (padicSolver p K la flint precision) q f n d D) (hn : 1 ≤ n) (hn2 : n < 2 * p)
    (hfl : FlintBatchOK (p ^ K) p n d (padicSolver p K la flint precision) D)
    {T T' : List (MonMap (ZMod (p ^ K)))} (hT : Reached n f T) (hT' : Reached n f T') (pre pre' : Bool) {order order' : List ℕ}
    (ho : order.Perm (List.range D.basis.length)) (ho' : order'.Perm (List.range D.basis.length)) {M : List ℤ}
    (hM : ∀ x ∈ M, TermsFit n x) :
    ((∃ r, frobMatrixJ (padicSolver p K la flint precision) D.toDR p pre order T M = .ok r) ↔
      ∃ r, frobMatrixND (padicSolver p K la flint precision) D p pre' order' T' M = .ok r) ∧
    ∀ r r', frobMatrixJ (padicSolver p K la flint precision) D.toDR p pre order T M = .ok r →
      frobMatrixND (padicSolver p K la flint precision) D p pre' order' T' M = .ok r' →
      r.1.rows = r'.1.rows ∧ r.1.cols = r'.1.cols ∧
      ∀ i k, i < D.basis.length → k < D.basis.length → r.1.e k i = r'.1.e k i := by
  have hCJ := C45_base_ND hC
  refine ⟨((C74_returns_matrix_partial (q := q) hK hla hprec hn hT pre hM).1 D.toDR hCJ ho hn2).trans
    ((C74_returns_matrix_partial (q := q) hK hla hprec hn hT' pre' hM).2 D hC ho' hfl).symm, fun r r' h h' => ?_⟩
  have hpole : ∀ b ∈ D.basis, 1 ≤ poleOrder n d b := by
    intro b hb
    obtain ⟨i, hi⟩ := List.mem_iff_getElem?.1 hb
    obtain ⟨e1, e2, hI⟩ := hC.init
    have := (basis_pole hI.base.basis (by have := hI.base.ok.hd; omega) hi).1
    rwa [e1, e2] at this
  have hdiv : n / p ≤ 1 := by
    have := (Nat.div_lt_iff_lt_mul hprime.out.pos).2 hn2
    omega
  obtain ⟨r1, r2, a1⟩ := (C64_frob_matrix_J_partial (p := p) hK hCJ hn
    (fun b hb => by have := hpole b hb; omega) hT pre ho M hM).1 r h
  obtain ⟨r1', r2', a2⟩ := (C64_frob_matrix_ND_partial (p := p) hK hC hn hfl hT' pre' ho' M hM).1 r' h'
  have d1 := (C74_range (p := p) hK hn hT pre M r).1 D.toDR hCJ ho
    (fun b Ni hb _ hpos => by have := hpole b hb; omega) h
  have d2 := (C74_range (p := p) hK hn hT' pre' M r').2 D hC ho' h'
  exact ⟨r1.trans r1'.symm, r2.trans r2'.symm, C74_unique hK hla hprec hCJ a1 a2 d1 d2⟩

/-- Two Frobenius matrices with different precisions, the first written with the digits left. -/
theorem frobenius_digits (hK : 1 ≤ K) (hKK' : K ≤ K') (hKK : p ^ K ∣ p ^ K') {la : LinAlg (ZMod p)} (hla : LinAlgOK la)
    {flint : Bool} {prec : ℕ} (hprec : K ≤ prec) {q n d : ℕ}
    {f' : MonMap (ZMod (p ^ K'))} {D : DR (ZMod (p ^ K))}
    (hC : Constructed (padicSolver p K la flint prec) q (lowerPoly hKK f') n d D) {M : List ℤ}
    {Φ : ℕ → ℕ → ZMod (p ^ K)} {Φ' : ℕ → ℕ → ZMod (p ^ K')}
    (h : IsFrobenius (toPoly (n + 1) (lowerPoly hKK f')) d p D.basis M Φ)
    (h' : IsFrobenius (toPoly (n + 1) f') d p D.basis M Φ') (hd : InDigits n d D.basis M Φ)
    (i : ℕ) (b : IVec) (hb : D.basis[i]? = some b) (Ni : ℤ) (hNi : M[poleOrder n d b - 1]? = some Ni) (k : ℕ)
    (hk : k < D.basis.length) :
    (Φ k i).val = (Φ' k i).val % p ^ (K - digitsLost p n (poleOrder n d b) Ni.toNat) := by
  have hz : NeZero (p ^ K') := ⟨pow_ne_zero _ hprime.out.ne_zero⟩
  have hz' : NeZero (p ^ K) := ⟨pow_ne_zero _ hprime.out.ne_zero⟩
  rcases le_or_gt Ni 0 with h0 | h0
  · obtain ⟨N1, b1, b2, -⟩ := h i b hb
    obtain ⟨N2, c1, c2, -⟩ := h' i b hb
    obtain rfl : N1 = Ni := Option.some.inj (b1.symm.trans hNi)
    obtain rfl : N2 = N1 := Option.some.inj (c1.symm.trans hNi)
    rw [b2 h0 k hk, c2 h0 k hk, ZMod.val_zero, ZMod.val_zero, Nat.zero_mod]
  · have h1 := (frobenius_lower hK hKK hla hprec hC h h').1 i b hb Ni hNi k hk
    have h2 := hd i b Ni hb hNi h0 k hk
    have e : padicValNat p (frobFact p (poleOrder n d b) Ni.toNat) - (n - 1) = digitsLost p n (poleOrder n d b) Ni.toNat := rfl
    rw [e] at h1
    generalize digitsLost p n (poleOrder n d b) Ni.toNat = s at h1 h2 ⊢
    rw [← Nat.mod_eq_of_lt h2]
    have h3 : ((p ^ s * (Φ k i).val : ℕ) : ZMod (p ^ K)) = ((p ^ s * (Φ' k i).val : ℕ) : ZMod (p ^ K)) := by
      push_cast
      rw [ZMod.natCast_zmod_val, h1, ZMod.castHom_apply, ZMod.natCast_val]
    rw [ZMod.natCast_eq_natCast_iff] at h3
    generalize (Φ k i).val = x at h3 ⊢
    generalize (Φ' k i).val = y at h3 ⊢
    rcases le_or_gt s K with hs | hs
    · have h4 : p ^ s * x ≡ p ^ s * y [MOD p ^ s * p ^ (K - s)] := by
        rw [← pow_add, show s + (K - s) = K by omega]; exact h3
      exact Nat.ModEq.mul_left_cancel' (pow_ne_zero _ hprime.out.ne_zero) h4
    · rw [show K - s = 0 by omega, pow_zero, Nat.mod_one, Nat.mod_one]

/-- A Frobenius matrix modulo `p^K'` taken modulo `p^K`. -/
theorem frobenius_map (hKK : p ^ K ∣ p ^ K') {n d : ℕ} {f' : MonMap (ZMod (p ^ K'))} {basis : List IVec} {M : List ℤ}
    {Φ' : ℕ → ℕ → ZMod (p ^ K')} (h' : IsFrobenius (toPoly (n + 1) f') d p basis M Φ') :
    IsFrobenius (toPoly (n + 1) (lowerPoly hKK f')) d p basis M (fun k i => ZMod.castHom hKK (ZMod (p ^ K)) (Φ' k i)) := by
  intro i b hb
  obtain ⟨N, c1, c2, c3⟩ := h' i b hb
  refine ⟨N, c1, fun h0 k hk => ?_, fun h0 => ?_⟩
  · simp only [c2 h0 k hk, map_zero]
  · have h3 := FrobColumn_map (ZMod.castHom hKK (ZMod (p ^ K))) (c3 h0)
    rw [← toPoly_coeffMap] at h3
    exact h3

/-- **C74 (precision, `frob_matrix_J`).**  As in C67, but exactly and also if digits are lost: whenever the function returns with
`K' >= K` digits it returns with `K` digits, and an entry computed with `K` digits is the one computed with `K'`, taken modulo
`p^(K-e)`. -/
theorem C74_lower_J_partial (hK : 1 ≤ K) (hKK' : K ≤ K') (hKK : p ^ K ∣ p ^ K') {la la' : LinAlg (ZMod p)}
    (hla : LinAlgOK la) (hla' : LinAlgOK la') {flint flint' : Bool} {prec prec' : ℕ} (hprec : K ≤ prec)
    (hprec' : K' ≤ prec') {q n d : ℕ} (hn : 1 ≤ n) (hn2 : n < 2 * p) {f : MonMap (ZMod (p ^ K'))} {D : DR (ZMod (p ^ K))}
    {D' : DR (ZMod (p ^ K'))} (hC : Constructed (padicSolver p K la flint prec) q (lowerPoly hKK f) n d D)
    (hC' : Constructed (padicSolver p K' la' flint' prec') q f n d D')
    {T : List (MonMap (ZMod (p ^ K)))} {T' : List (MonMap (ZMod (p ^ K')))} (hT : Reached n (lowerPoly hKK f) T)
    (hT' : Reached n f T') (pre pre' : Bool) {order order' : List ℕ} (ho : order.Perm (List.range D.basis.length))
    (ho' : order'.Perm (List.range D.basis.length)) {M : List ℤ} (hM : ∀ x ∈ M, TermsFit n x)
    {r' : CMat (ZMod (p ^ K')) × List (MonMap (ZMod (p ^ K')))}
    (h' : frobMatrixJ (padicSolver p K' la' flint' prec') D' p pre' order' T' M = .ok r') :
    ∃ r, frobMatrixJ (padicSolver p K la flint prec) D p pre order T M = .ok r ∧
      ∀ (i : ℕ) (b : IVec), D.basis[i]? = some b → ∀ Ni : ℤ, M[poleOrder n d b - 1]? = some Ni → ∀ k, k < D.basis.length →
        (r.1.e k i).val = (r'.1.e k i).val % p ^ (K - digitsLost p n (poleOrder n d b) Ni.toNat) := by
  have hbasis : D'.basis = D.basis := by
    have h1 := (C67_constructors hK hKK hla hla' flint flint' (prec := prec) hprec' q f).1
    rw [hC.built, hC'.built] at h1
    rw [Except.ok.inj h1]
  have hdiv : n / p ≤ 1 := by
    have := (Nat.div_lt_iff_lt_mul hprime.out.pos).2 hn2
    omega
  have hpole : ∀ b ∈ D.basis, 1 ≤ poleOrder n d b := by
    intro b hb
    obtain ⟨i, hi⟩ := List.mem_iff_getElem?.1 hb
    obtain ⟨e1, e2, hI⟩ := hC.init
    have := (basis_pole hI.basis (by have := hI.ok.hd; omega) hi).1
    rwa [e1, e2] at this
  have a2 := ((C64_frob_matrix_J_partial (p := p) (by omega : 1 ≤ K') hC' hn
    (fun b hb => by rw [hbasis] at hb; have := hpole b hb; omega) hT' pre'
    (by rw [hbasis]; exact ho') M hM).1 r' h').2.2
  rw [hbasis] at a2
  have hlen := ((C74_returns_matrix_partial (q := q) (by omega : 1 ≤ K') hla' hprec' hn hT' pre' hM).1 D' hC' (by rw [hbasis]; exact ho') hn2).1 ⟨r', h'⟩
  obtain ⟨r, h⟩ := ((C74_returns_matrix_partial (q := q) hK hla hprec hn hT pre hM).1 D hC ho hn2).2
    ⟨hlen.1, _, frobenius_map hKK a2⟩
  have a1 := ((C64_frob_matrix_J_partial (p := p) hK hC hn (fun b hb => by have := hpole b hb; omega) hT pre
    ho M hM).1 r h).2.2
  have d1 := (C74_range (p := p) hK hn hT pre M r).1 D hC ho (fun b Ni hb _ hpos => by have := hpole b hb; omega) h
  exact ⟨r, h, fun i b hb Ni hNi k hk => frobenius_digits hK hKK' hKK hla hprec hC a1 a2 d1 i b hb Ni hNi k hk⟩

/-- **C74 (precision, `frob_matrix_ND`).** -/
theorem C74_lower_ND_partial (hK : 1 ≤ K) (hKK' : K ≤ K') (hKK : p ^ K ∣ p ^ K') {la la' : LinAlg (ZMod p)}
    (hla : LinAlgOK la) (hla' : LinAlgOK la') {flint flint' : Bool} {prec prec' : ℕ} (hprec : K ≤ prec)
    (hprec' : K' ≤ prec') {q n d : ℕ} (hn : 1 ≤ n) {f : MonMap (ZMod (p ^ K'))} {D : ND (ZMod (p ^ K))}
    {D' : ND (ZMod (p ^ K'))} (hC : ConstructedND (padicSolver p K la flint prec) q (lowerPoly hKK f) n d D)
    (hC' : ConstructedND (padicSolver p K' la' flint' prec') q f n d D')
    (hfl : FlintBatchOK (p ^ K) p n d (padicSolver p K la flint prec) D)
    (hfl' : FlintBatchOK (p ^ K') p n d (padicSolver p K' la' flint' prec') D')
    {T : List (MonMap (ZMod (p ^ K)))} {T' : List (MonMap (ZMod (p ^ K')))} (hT : Reached n (lowerPoly hKK f) T)
    (hT' : Reached n f T') (pre pre' : Bool) {order order' : List ℕ} (ho : order.Perm (List.range D.basis.length))
    (ho' : order'.Perm (List.range D.basis.length)) {M : List ℤ} (hM : ∀ x ∈ M, TermsFit n x)
    {r' : CMat (ZMod (p ^ K')) × List (MonMap (ZMod (p ^ K')))}
    (h' : frobMatrixND (padicSolver p K' la' flint' prec') D' p pre' order' T' M = .ok r') :
    ∃ r, frobMatrixND (padicSolver p K la flint prec) D p pre order T M = .ok r ∧
      ∀ (i : ℕ) (b : IVec), D.basis[i]? = some b → ∀ Ni : ℤ, M[poleOrder n d b - 1]? = some Ni → ∀ k, k < D.basis.length →
        (r.1.e k i).val = (r'.1.e k i).val % p ^ (K - digitsLost p n (poleOrder n d b) Ni.toNat) := by
  have h1 := (C67_constructors hK hKK hla hla' flint flint' (prec := prec) hprec' q f).2
  rw [hC.built, hC'.built] at h1
  have hbasis : D'.basis = D.basis := by rw [Except.ok.inj h1]
  have a2 := ((C64_frob_matrix_ND_partial (p := p) (by omega : 1 ≤ K') hC' hn hfl' hT' pre'
    (by rw [hbasis]; exact ho') M hM).1 r' h').2.2
  rw [hbasis] at a2
  have hlen := ((C74_returns_matrix_partial (q := q) (by omega : 1 ≤ K') hla' hprec' hn hT' pre' hM).2 D' hC' (by rw [hbasis]; exact ho') hfl').1 ⟨r', h'⟩
  obtain ⟨r, h⟩ := ((C74_returns_matrix_partial (q := q) hK hla hprec hn hT pre hM).2 D hC ho hfl).2
    ⟨hlen.1, _, frobenius_map hKK a2⟩
  have a1 := ((C64_frob_matrix_ND_partial (p := p) hK hC hn hfl hT pre ho M hM).1 r h).2.2
  have d1 := (C74_range (p := p) hK hn hT pre M r).2 D hC ho h
  exact ⟨r, h, fun i b hb Ni hNi k hk => frobenius_digits hK hKK' hKK hla hprec (C45_base_ND hC) a1 a2 d1 i b hb Ni hNi k hk⟩

/-- **C74 (the precision chosen by the zeta functions).**  With the precision chosen for a requested `abs > 0` every column that is
computed keeps at least `N_m + m - n` digits, the relative precision asked for. -/
theorem C74_chosen (n : ℕ) (d abs : ℤ) (increase : Bool) (z : ZetaPrec) (habs : 0 < abs) (hz : choosePrec p n d abs increase = .ok z)
    (m : ℕ) (hm : 1 ≤ m) (hmn : m ≤ n) (Nm : ℤ) (hN : z.N[m - 1]? = some Nm) (hpos : 0 < Nm) :
    Nm + m - n ≤ z.precision - digitsLost p n m Nm.toNat := by
  cases ha : defaultArgs p n d with
  | error e => rw [choosePrec, ha] at hz; cases hz
  | ok a =>
    rcases C40_precision p hprime.out n d abs increase a ha habs with ⟨z', h1, h2⟩ | ⟨h1, -⟩
    · obtain rfl := Except.ok.inj (h1.symm.trans hz)
      have hg : z'.N.getD (m - 1) 0 = Nm := by rw [List.getD_eq_getElem?_getD, hN]; rfl
      have h3 := h2.needed (m - 1) (by omega) (by rw [hg]; exact hpos)
      rw [hg, precNeeded] at h3
      have e : (p * (((m - 1 : ℕ) : ℤ) + Nm) - 1).toNat = p * (m + Nm.toNat - 1) - 1 := by
        obtain ⟨c, rfl⟩ := Int.eq_ofNat_of_zero_le hpos.le
        obtain ⟨m', rfl⟩ : ∃ m', m = m' + 1 := ⟨m - 1, by omega⟩
        rw [Int.toNat_natCast, show m' + 1 + c - 1 = m' + c by omega, Nat.add_sub_cancel]
        have : ((p : ℤ) * ((m' : ℤ) + c)) = ((p * (m' + c) : ℕ) : ℤ) := by push_cast; rfl
        rw [this]
        omega
      rw [e] at h3
      have e2 : digitsLost p n m Nm.toNat = padicValNat p (p * (m + Nm.toNat - 1) - 1).factorial - (n - 1) := rfl
      rw [e2]
      have h4 := le_max_right (0 : ℤ) ((padicValNat p (p * (m + Nm.toNat - 1) - 1).factorial : ℤ) - ((m - 1 : ℕ) : ℤ))
      have h5 := le_max_left (0 : ℤ) ((padicValNat p (p * (m + Nm.toNat - 1) - 1).factorial : ℤ) - ((m - 1 : ℕ) : ℤ))
      omega
    · rw [h1] at hz; cases hz

end

/-! ### A case in which a digit is lost -/

section

variable {K : ℕ} [hprime : Fact (Nat.Prime 3)]

theorem twoPoints_lost : digitsLost 3 1 1 2 = 1 := by
  have : frobFact 3 1 2 = 3 ^ 1 * 40 := by decide
  rw [digitsLost, this, padicValNat.mul (by norm_num) (by norm_num), padicValNat.prime_pow,
    padicValNat.eq_zero_of_not_dvd (by norm_num)]

theorem twoPoints_frobenius {D : DR (ZMod (3 ^ K))} (hb : D.basis = [[0, 0]]) :
    ∃ Φ, IsFrobenius (toPoly (1 + 1) (twoPoints (ZMod (3 ^ K)))) 2 3 D.basis [2] Φ := by
  have hx : ∃ x : ZMod (3 ^ K), 128 * x = 25 := by
    have := ZMod.coe_mul_inv_eq_one (n := 3 ^ K) 128 (Nat.Coprime.pow_right _ (by norm_num))
    refine ⟨((128 : ℕ) : ZMod (3 ^ K))⁻¹ * 25, ?_⟩
    rw [← mul_assoc]
    push_cast at this ⊢
    rw [this, one_mul]
  obtain ⟨x, hx⟩ := hx
  refine ⟨fun _ _ => x, fun i b hib => ?_⟩
  rw [hb] at hib
  obtain ⟨hi, rfl⟩ := List.getElem?_eq_some_iff.1 hib
  obtain rfl : i = 0 := by simpa using hi
  exact ⟨2, rfl, fun h => absurd h (by norm_num), fun _ => twoPoints_column hb hx⟩

/-- The two points `x^2 + y^2 = 0` in characteristic 3 with two terms and any precision `K`: the division takes one digit away, the function
returns, and the entry is `25/128` modulo `3^(K-1)`, with `K - 1` digits. -/
example (hK : 1 ≤ K) {la : LinAlg (ZMod 3)} (hla : LinAlgOK la) (flint pre : Bool) :
    ∃ D, Constructed (padicSolver 3 K la flint K) 3 (twoPoints (ZMod (3 ^ K))) 1 2 D ∧
      ∃ r, frobMatrixJ (padicSolver 3 K la flint K) D 3 pre (List.range D.basis.length) (fpowStart 1) [2] = .ok r ∧
        (r.1.e 0 0).val < 3 ^ (K - 1) ∧ 128 * (r.1.e 0 0).val ≡ 25 [MOD 3 ^ (K - 1)] := by
  obtain ⟨⟨D, hC⟩, -⟩ := twoPoints_constructed hK hla flint
  have hb := twoPoints_basis hC
  have hfit : ∀ x ∈ ([2] : List ℤ), TermsFit 1 x := fun x hx => termsFit_three (by norm_num) (by
    rw [List.mem_singleton.1 hx]; norm_num)
  obtain ⟨r, hr⟩ := ((C74_returns_matrix_partial (q := 3) hK hla le_rfl le_rfl (reached_start 1 (twoPoints (ZMod (3 ^ K))))
    pre hfit).1 D hC (List.Perm.refl _) (by norm_num)).2 ⟨rfl, twoPoints_frobenius hb⟩
  have hd := (C74_range (p := 3) hK le_rfl (reached_start 1 (twoPoints (ZMod (3 ^ K)))) pre [2] r).1 D hC (List.Perm.refl _)
    (fun b Ni _ _ _ => by norm_num) hr 0 [0, 0] 2 (by rw [hb]; rfl) rfl (by norm_num) 0 (by rw [hb]; norm_num)
  have hl : digitsLost 3 1 (poleOrder 1 2 [0, 0]) (2 : ℤ).toNat = 1 := twoPoints_lost
  rw [hl] at hd
  refine ⟨D, hC, r, hr, hd, ?_⟩
  have hz : NeZero (3 ^ K) := ⟨pow_ne_zero _ (by norm_num)⟩
  have hF := ((C64_frob_matrix_J_partial (p := 3) hK hC le_rfl (fun b _ => by norm_num) (reached_start 1 _) pre
    (List.Perm.refl _) [2] hfit).1 r hr).2.2
  obtain ⟨N, h1, -, h3⟩ := hF 0 [0, 0] (by rw [hb]; rfl)
  obtain rfl : (2 : ℤ) = N := Option.some.inj h1
  have hx : ∃ x : ZMod (3 ^ K), 128 * x = 25 := by
    have := ZMod.coe_mul_inv_eq_one (n := 3 ^ K) 128 (Nat.Coprime.pow_right _ (by norm_num))
    refine ⟨((128 : ℕ) : ZMod (3 ^ K))⁻¹ * 25, ?_⟩
    rw [← mul_assoc]
    push_cast at this ⊢
    rw [this, one_mul]
  obtain ⟨x, hx⟩ := hx
  have h4 := C66_column_unique hK hla le_rfl hC (h3 (by norm_num)) (twoPoints_column hb hx) 0 (by rw [hb]; norm_num)
  have h5 : padicValNat 3 (frobFact 3 (poleOrder 1 2 [0, 0]) (2 : ℤ).toNat) - (1 - 1) = 1 := twoPoints_lost
  rw [h5, pow_one] at h4
  have h6 : ((3 * (128 * (r.1.e 0 0).val) : ℕ) : ZMod (3 ^ K)) = ((3 * 25 : ℕ) : ZMod (3 ^ K)) := by
    push_cast
    rw [ZMod.natCast_zmod_val]
    calc (3 * (128 * r.1.e 0 0) : ZMod (3 ^ K)) = 128 * (((3 : ℕ) : ZMod (3 ^ K)) * r.1.e 0 0) := by push_cast; ring
      _ = 128 * (((3 : ℕ) : ZMod (3 ^ K)) * x) := by rw [h4]
      _ = 3 * (128 * x) := by push_cast; ring
      _ = 75 := by rw [hx]; norm_num
  rw [ZMod.natCast_eq_natCast_iff] at h6
  generalize (r.1.e 0 0).val = y at h6 ⊢
  obtain ⟨k, rfl⟩ : ∃ k, K = k + 1 := ⟨K - 1, by omega⟩
  rw [Nat.add_sub_cancel]
  rw [show 3 ^ (k + 1) = 3 * 3 ^ k by rw [pow_succ, mul_comm]] at h6
  exact Nat.ModEq.mul_left_cancel' (by norm_num) h6

/-- The same points with at least 41 digits: both routines return, and they return the same matrix; one digit is lost. -/
example (hK : 41 ≤ K) {la : LinAlg (ZMod 3)} (hla : LinAlgOK la) (flint pre pre' : Bool) :
    ∃ D, ConstructedND (padicSolver 3 K la flint K) 3 (twoPoints (ZMod (3 ^ K))) 1 2 D ∧ DivisionMayFail 3 1 2 D.basis [2] ∧
      ∃ r r', frobMatrixJ (padicSolver 3 K la flint K) D.toDR 3 pre (List.range D.basis.length) (fpowStart 1) [2] = .ok r ∧
        frobMatrixND (padicSolver 3 K la flint K) D 3 pre' (List.range D.basis.length) (fpowStart 1) [2] = .ok r' ∧
        r.1.e 0 0 = r'.1.e 0 0 := by
  have hK1 : 1 ≤ K := by omega
  obtain ⟨-, D, hC⟩ := twoPoints_constructed hK1 hla flint
  have hb := twoPoints_basis (C45_base_ND hC)
  have hfit : ∀ x ∈ ([2] : List ℤ), TermsFit 1 x := fun x hx => termsFit_three (by norm_num) (by
    rw [List.mem_singleton.1 hx]; norm_num)
  have hfl : FlintBatchOK (3 ^ K) 3 1 2 (padicSolver 3 K la flint K) D :=
    Or.inl (le_trans (by norm_num) (Nat.pow_le_pow_right (by norm_num) hK))
  obtain ⟨h1, h2⟩ := C74_J_ND_partial hK1 hla le_rfl hC le_rfl (by norm_num) hfl (reached_start 1 _) (reached_start 1 _) pre pre'
    (List.Perm.refl _) (List.Perm.refl _) hfit
  obtain ⟨r, hr⟩ := ((C74_returns_matrix_partial (q := 3) hK1 hla le_rfl le_rfl (reached_start 1 (twoPoints (ZMod (3 ^ K))))
    pre hfit).1 D.toDR (C45_base_ND hC) (List.Perm.refl _) (by norm_num)).2 ⟨rfl, twoPoints_frobenius hb⟩
  obtain ⟨r', hr'⟩ := h1.1 ⟨r, hr⟩
  have hlen : D.basis.length = 1 := by rw [hb]; rfl
  refine ⟨D, hC, ⟨[0, 0], by rw [hb]; simp, 2, rfl, by norm_num, by decide⟩, r, r', hr, hr',
    (h2 r r' hr hr').2.2 0 0 (by omega) (by omega)⟩

/-- Lowering the precision for the two points, from any `K'` to any `K`. -/
example {K' : ℕ} (hK : 1 ≤ K) (hKK' : K ≤ K') {la : LinAlg (ZMod 3)} (hla : LinAlgOK la) (flint flint' pre pre' : Bool) :
    ∃ D D', Constructed (padicSolver 3 K la flint K) 3 (twoPoints (ZMod (3 ^ K))) 1 2 D ∧
      Constructed (padicSolver 3 K' la flint' K') 3 (twoPoints (ZMod (3 ^ K'))) 1 2 D' ∧
      ∃ r r', frobMatrixJ (padicSolver 3 K la flint K) D 3 pre (List.range D.basis.length) (fpowStart 1) [2] = .ok r ∧
        frobMatrixJ (padicSolver 3 K' la flint' K') D' 3 pre' (List.range D.basis.length) (fpowStart 1) [2] = .ok r' ∧
        (r.1.e 0 0).val = (r'.1.e 0 0).val % 3 ^ (K - 1) := by
  have hKK : 3 ^ K ∣ 3 ^ K' := pow_dvd_pow _ hKK'
  obtain ⟨⟨D, hC⟩, -⟩ := twoPoints_constructed hK hla flint
  obtain ⟨⟨D', hC'⟩, -⟩ := twoPoints_constructed (hK.trans hKK') hla flint'
  have hb := twoPoints_basis hC
  have hb' := twoPoints_basis hC'
  have hfit : ∀ x ∈ ([2] : List ℤ), TermsFit 1 x := fun x hx => termsFit_three (by norm_num) (by
    rw [List.mem_singleton.1 hx]; norm_num)
  have hlow : lowerPoly hKK (twoPoints (ZMod (3 ^ K'))) = twoPoints (ZMod (3 ^ K)) := by
    simp only [lowerPoly, twoPoints, List.map_cons, List.map_nil, map_one]
  obtain ⟨r', hr'⟩ := ((C74_returns_matrix_partial (q := 3) (hK.trans hKK') hla le_rfl le_rfl
    (reached_start 1 (twoPoints (ZMod (3 ^ K')))) pre' hfit).1 D' hC' (List.Perm.refl _) (by norm_num)).2
    ⟨rfl, twoPoints_frobenius hb'⟩
  rw [hb', ← hb] at hr'
  rw [← hlow] at hC
  obtain ⟨r, hr, h⟩ := C74_lower_J_partial hK hKK' hKK hla hla le_rfl le_rfl le_rfl (by norm_num) hC hC' (reached_start 1 _)
    (reached_start 1 _) pre pre' (List.Perm.refl _) (List.Perm.refl _) hfit hr'
  have h0 := h 0 [0, 0] (by rw [hb]; rfl) 2 rfl 0 (by rw [hb]; norm_num)
  have hl : digitsLost 3 1 (poleOrder 1 2 [0, 0]) (2 : ℤ).toNat = 1 := twoPoints_lost
  rw [hl] at h0
  rw [hlow] at hC
  exact ⟨D, D', hC, hC', r, r', hr, hr', h0⟩

end

/-- Plane quartics modulo 31 with three digits asked for: both columns keep the digits. -/
example : ∃ z, choosePrec 31 2 4 3 true = .ok z ∧ z.N = [3, 3] ∧ (2 : ℤ) ≤ z.precision - digitsLost 31 2 1 3 ∧
    (3 : ℤ) ≤ z.precision - digitsLost 31 2 2 3 := by
  have hp : Fact (Nat.Prime 31) := ⟨by norm_num⟩
  rcases C40_precision 31 (by norm_num) 2 4 3 true _ rfl (by norm_num) with ⟨z, hz, hs⟩ | ⟨-, i, hi, h⟩
  · have h0 := hs.terms 0 (by norm_num)
    have h1 := hs.terms 1 (by norm_num)
    have hl := hs.len
    have hN : z.N = [3, 3] := by
      match hNz : z.N with
      | [a, b] => rw [hNz] at h0 h1; simp at h0 h1; rw [h0, h1]
      | [] | [_] | _ :: _ :: _ :: _ => rw [hNz] at hl; simp at hl <;> omega
    have a1 := C74_chosen (p := 31) 2 4 3 true z (by norm_num) hz 1 (by norm_num) (by norm_num) 3 (by rw [hN]; rfl) (by norm_num)
    have a2 := C74_chosen (p := 31) 2 4 3 true z (by norm_num) hz 2 (by norm_num) (by norm_num) 3 (by rw [hN]; rfl) (by norm_num)
    exact ⟨z, hz, hN, by norm_num at a1 ⊢; exact a1, by norm_num at a2 ⊢; exact a2⟩
  · exfalso
    obtain rfl | rfl : i = 0 ∨ i = 1 := by omega
    all_goals simp at h

end Verif
