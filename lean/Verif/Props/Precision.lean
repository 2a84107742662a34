import Verif.Lemmas.Lower
import Verif.Props.Unique

/-!
Property C67: computing with more digits and then dropping them is the same as computing with fewer digits.
-/

namespace Verif

open Spec MvPolynomial

section

variable {p K K' : ℕ} [hprime : Fact p.Prime]

/-- The polynomial with its coefficients taken modulo the lower power of `p`. -/
def Spec.lowerPoly (h : p ^ K ∣ p ^ K') (f : MonMap (ZMod (p ^ K'))) : MonMap (ZMod (p ^ K)) :=
  f.map (fun e => (e.1, ZMod.castHom h (ZMod (p ^ K)) e.2))

/-- For a polynomial with integer coefficients this is its reduction modulo the lower power. -/
theorem lowerPoly_reduceCoeffs (h : p ^ K ∣ p ^ K') (F : MonMap ℤ) :
    lowerPoly h (reduceCoeffs (p ^ K') F) = reduceCoeffs (p ^ K) F := by
  simp only [lowerPoly, reduceCoeffs, List.map_map]
  refine List.map_congr_left (fun e _ => ?_)
  simp only [Function.comp_apply, map_intCast]

/-- **C67 (constructors).**  With `K <= K'`, whatever the implementations of the linear algebra and the variants used:
the constructor for precision `K` accepts a polynomial exactly if the one for `K'` does, fails in the same way
otherwise, and the object built is the one for `K'` with the coefficients taken modulo `p^K`; in particular the bases are the
same.  The same holds for the non-degenerate class. -/
theorem C67_constructors (hK : 1 ≤ K) (hKK : p ^ K ∣ p ^ K') {la la' : LinAlg (ZMod p)} (hla : LinAlgOK la)
    (hla' : LinAlgOK la') (flint flint' : Bool) {prec prec' : ℕ} (hprec' : K' ≤ prec') (q : ℕ) (f : MonMap (ZMod (p ^ K'))) :
    DR.init (padicSolver p K la flint prec) q (lowerPoly hKK f) =
      (DR.init (padicSolver p K' la' flint' prec') q f).map
        (fun D => ⟨D.n, D.d, lowerPoly hKK D.f, D.tupleList, D.tupleDict, D.basis, D.basisDict⟩) ∧
    ND.init (padicSolver p K la flint prec) q (lowerPoly hKK f) =
      (ND.init (padicSolver p K' la' flint' prec') q f).map
        (fun D => ⟨⟨D.n, D.d, lowerPoly hKK D.f, D.tupleList, D.tupleDict, D.basis, D.basisDict⟩, D.ndBasis, D.ndDict⟩) :=
  ⟨init_mapC _ (padic_lower hK hKK hla hla' flint flint' prec prec' hprec') q f,
    initND_mapC _ (padic_lower hK hKK hla hla' flint flint' prec prec' hprec') q f⟩

/-- Two Frobenius matrices for the same polynomial with different precisions. -/
theorem frobenius_lower (hK : 1 ≤ K) (hKK : p ^ K ∣ p ^ K') {la : LinAlg (ZMod p)} (hla : LinAlgOK la)
    {flint : Bool} {prec : ℕ} (hprec : K ≤ prec) {q n d : ℕ}
    {f' : MonMap (ZMod (p ^ K'))} {D : DR (ZMod (p ^ K))}
    (hC : Constructed (padicSolver p K la flint prec) q (lowerPoly hKK f') n d D) {M : List ℤ}
    {Φ : ℕ → ℕ → ZMod (p ^ K)} {Φ' : ℕ → ℕ → ZMod (p ^ K')}
    (h : IsFrobenius (toPoly (n + 1) (lowerPoly hKK f')) d p D.basis M Φ)
    (h' : IsFrobenius (toPoly (n + 1) f') d p D.basis M Φ') :
    (∀ (i : ℕ) b, D.basis[i]? = some b → ∀ Ni : ℤ, M[poleOrder n d b - 1]? = some Ni → ∀ k, k < D.basis.length →
      (p : ZMod (p ^ K)) ^ (padicValNat p (frobFact p (poleOrder n d b) Ni.toNat) - (n - 1)) * Φ k i =
      (p : ZMod (p ^ K)) ^ (padicValNat p (frobFact p (poleOrder n d b) Ni.toNat) - (n - 1)) *
        ZMod.castHom hKK (ZMod (p ^ K)) (Φ' k i)) ∧
    (¬ DivisionMayFail p n d D.basis M → ∀ i k, i < D.basis.length → k < D.basis.length →
      Φ k i = ZMod.castHom hKK (ZMod (p ^ K)) (Φ' k i)) := by
  have key : ∀ (i : ℕ) b, D.basis[i]? = some b → ∀ Ni : ℤ, M[poleOrder n d b - 1]? = some Ni → ∀ k, k < D.basis.length →
      (p : ZMod (p ^ K)) ^ (padicValNat p (frobFact p (poleOrder n d b) Ni.toNat) - (n - 1)) * Φ k i =
      (p : ZMod (p ^ K)) ^ (padicValNat p (frobFact p (poleOrder n d b) Ni.toNat) - (n - 1)) *
        ZMod.castHom hKK (ZMod (p ^ K)) (Φ' k i) := by
    intro i b hb Ni hNi k hk
    obtain ⟨N1, b1, b2, b3⟩ := h i b hb
    obtain ⟨N2, c1, c2, c3⟩ := h' i b hb
    obtain rfl : N1 = Ni := Option.some.inj (b1.symm.trans hNi)
    obtain rfl : N2 = N1 := Option.some.inj (c1.symm.trans hNi)
    rcases le_or_gt N2 0 with h0 | h0
    · rw [b2 h0 k hk, c2 h0 k hk, map_zero]
    · have h3 := FrobColumn_map (ZMod.castHom hKK (ZMod (p ^ K))) (c3 h0)
      rw [← toPoly_coeffMap] at h3
      exact C66_column_unique hK hla hprec hC (b3 h0) h3 k hk
  refine ⟨key, fun hno i k hi hk => ?_⟩
  have hb : D.basis[i]? = some D.basis[i] := List.getElem?_eq_getElem hi
  obtain ⟨Ni, hNi, b2, -⟩ := h i _ hb
  obtain ⟨N2, c1, c2, -⟩ := h' i _ hb
  obtain rfl : N2 = Ni := Option.some.inj (c1.symm.trans hNi)
  rcases le_or_gt N2 0 with h0 | h0
  · rw [b2 h0 k hk, c2 h0 k hk, map_zero]
  · have hv : padicValNat p (frobFact p (poleOrder n d D.basis[i]) N2.toNat) - (n - 1) = 0 := by
      by_contra hv
      refine hno ⟨_, List.getElem_mem hi, N2, hNi, h0, ?_⟩
      refine (padicValNat_dvd_iff_le (Nat.factorial_ne_zero _)).2 ?_
      have : frobFact p (poleOrder n d D.basis[i]) N2.toNat =
        (p * (poleOrder n d D.basis[i] + N2.toNat - 1) - 1).factorial := rfl
      rw [this] at hv
      omega
    have := key i _ hb N2 hNi k hk
    rwa [hv, pow_zero, one_mul, one_mul] at this

/-- **C67 (`frob_matrix_J`).**  Let a smooth polynomial with `n < 2 p` be given modulo `p^K'`.  Compute its Frobenius matrix, for numbers of
terms whose coefficients fit, with `K'` digits, and with `K <= K'` digits from the polynomial modulo `p^K`; with any linear algebra, flint
or NTL, any tables of powers, any order of the parallel loop.  If both calls return, then the second matrix is the first one
modulo `p^K`, up to the digits lost in the exact division at the end; exactly when `p^n` divides none of the
factorials. -/
theorem C67_frob_matrix_J_partial (hK : 1 ≤ K) (hKK' : K ≤ K') (hKK : p ^ K ∣ p ^ K') {la la' : LinAlg (ZMod p)}
    (hla : LinAlgOK la) (hla' : LinAlgOK la') {flint flint' : Bool} {prec prec' : ℕ} (hprec : K ≤ prec)
    (hprec' : K' ≤ prec') {q n d : ℕ} (hn : 1 ≤ n) (hn2 : n < 2 * p) {f : MonMap (ZMod (p ^ K'))} {D : DR (ZMod (p ^ K))}
    {D' : DR (ZMod (p ^ K'))} (hC : Constructed (padicSolver p K la flint prec) q (lowerPoly hKK f) n d D)
    (hC' : Constructed (padicSolver p K' la' flint' prec') q f n d D')
    {T : List (MonMap (ZMod (p ^ K)))} {T' : List (MonMap (ZMod (p ^ K')))} (hT : Reached n (lowerPoly hKK f) T)
    (hT' : Reached n f T') (pre pre' : Bool) {order order' : List ℕ} (ho : order.Perm (List.range D.basis.length))
    (ho' : order'.Perm (List.range D.basis.length)) {M : List ℤ} (hM : ∀ x ∈ M, TermsFit n x)
    {r : CMat (ZMod (p ^ K)) × List (MonMap (ZMod (p ^ K)))} {r' : CMat (ZMod (p ^ K')) × List (MonMap (ZMod (p ^ K')))}
    (h : frobMatrixJ (padicSolver p K la flint prec) D p pre order T M = .ok r)
    (h' : frobMatrixJ (padicSolver p K' la' flint' prec') D' p pre' order' T' M = .ok r') :
    D'.basis = D.basis ∧
    (∀ (i : ℕ) b, D.basis[i]? = some b → ∀ Ni : ℤ, M[poleOrder n d b - 1]? = some Ni → ∀ k, k < D.basis.length →
      (p : ZMod (p ^ K)) ^ (padicValNat p (frobFact p (poleOrder n d b) Ni.toNat) - (n - 1)) * r.1.e k i =
      (p : ZMod (p ^ K)) ^ (padicValNat p (frobFact p (poleOrder n d b) Ni.toNat) - (n - 1)) *
        ZMod.castHom hKK (ZMod (p ^ K)) (r'.1.e k i)) ∧
    (¬ DivisionMayFail p n d D.basis M → ∀ i k, i < D.basis.length → k < D.basis.length →
      r.1.e k i = ZMod.castHom hKK (ZMod (p ^ K)) (r'.1.e k i)) := by
  have hbasis : D'.basis = D.basis := by
    have h1 := (C67_constructors hK hKK hla hla' flint flint' (prec := prec) hprec' q f).1
    rw [hC.built, hC'.built] at h1
    rw [Except.ok.inj h1]
  have hdiv : n / p ≤ 1 := by
    have := (Nat.div_lt_iff_lt_mul hprime.out.pos).2 hn2
    omega
  have hpole : ∀ b ∈ D.basis, 1 ≤ poleOrder n d b := by
    intro b hb
    obtain ⟨i, hi⟩ := List.mem_iff_getElem?.1 hb
    obtain ⟨e1, e2, hI⟩ := hC.init
    have := (basis_pole hI.basis (by have := hI.ok.hd; omega) hi).1
    rwa [e1, e2] at this
  have a1 := ((C64_frob_matrix_J_partial (p := p) hK hC hn (fun b hb => by have := hpole b hb; omega) hT pre
    ho M hM).1 r h).2.2
  have a2 := ((C64_frob_matrix_J_partial (p := p) (by omega : 1 ≤ K') hC' hn
    (fun b hb => by rw [hbasis] at hb; have := hpole b hb; omega) hT' pre'
    (by rw [hbasis]; exact ho') M hM).1 r' h').2.2
  rw [hbasis] at a2
  exact ⟨hbasis, frobenius_lower hK hKK hla hprec hC a1 a2⟩

/-- **C67 (`frob_matrix_ND`).**  The same for non-degenerate polynomials handled by the finite differences. -/
theorem C67_frob_matrix_ND_partial (hK : 1 ≤ K) (hKK' : K ≤ K') (hKK : p ^ K ∣ p ^ K') {la la' : LinAlg (ZMod p)}
    (hla : LinAlgOK la) (hla' : LinAlgOK la') {flint flint' : Bool} {prec prec' : ℕ} (hprec : K ≤ prec)
    (hprec' : K' ≤ prec') {q n d : ℕ} (hn : 1 ≤ n) {f : MonMap (ZMod (p ^ K'))} {D : ND (ZMod (p ^ K))}
    {D' : ND (ZMod (p ^ K'))} (hC : ConstructedND (padicSolver p K la flint prec) q (lowerPoly hKK f) n d D)
    (hC' : ConstructedND (padicSolver p K' la' flint' prec') q f n d D')
    (hfl : FlintBatchOK (p ^ K) p n d (padicSolver p K la flint prec) D)
    (hfl' : FlintBatchOK (p ^ K') p n d (padicSolver p K' la' flint' prec') D')
    {T : List (MonMap (ZMod (p ^ K)))} {T' : List (MonMap (ZMod (p ^ K')))} (hT : Reached n (lowerPoly hKK f) T)
    (hT' : Reached n f T') (pre pre' : Bool) {order order' : List ℕ} (ho : order.Perm (List.range D.basis.length))
    (ho' : order'.Perm (List.range D.basis.length)) {M : List ℤ} (hM : ∀ x ∈ M, TermsFit n x)
    {r : CMat (ZMod (p ^ K)) × List (MonMap (ZMod (p ^ K)))} {r' : CMat (ZMod (p ^ K')) × List (MonMap (ZMod (p ^ K')))}
    (h : frobMatrixND (padicSolver p K la flint prec) D p pre order T M = .ok r)
    (h' : frobMatrixND (padicSolver p K' la' flint' prec') D' p pre' order' T' M = .ok r') :
    D'.basis = D.basis ∧ D'.ndBasis = D.ndBasis ∧
    (∀ (i : ℕ) b, D.basis[i]? = some b → ∀ Ni : ℤ, M[poleOrder n d b - 1]? = some Ni → ∀ k, k < D.basis.length →
      (p : ZMod (p ^ K)) ^ (padicValNat p (frobFact p (poleOrder n d b) Ni.toNat) - (n - 1)) * r.1.e k i =
      (p : ZMod (p ^ K)) ^ (padicValNat p (frobFact p (poleOrder n d b) Ni.toNat) - (n - 1)) *
        ZMod.castHom hKK (ZMod (p ^ K)) (r'.1.e k i)) ∧
    (¬ DivisionMayFail p n d D.basis M → ∀ i k, i < D.basis.length → k < D.basis.length →
      r.1.e k i = ZMod.castHom hKK (ZMod (p ^ K)) (r'.1.e k i)) := by
  have h1 := (C67_constructors hK hKK hla hla' flint flint' (prec := prec) hprec' q f).2
  rw [hC.built, hC'.built] at h1
  have hbasis : D'.basis = D.basis := by rw [Except.ok.inj h1]
  have hnd : D'.ndBasis = D.ndBasis := by rw [Except.ok.inj h1]
  have a1 := ((C64_frob_matrix_ND_partial (p := p) hK hC hn hfl hT pre ho M hM).1 r h).2.2
  have a2 := ((C64_frob_matrix_ND_partial (p := p) (by omega : 1 ≤ K') hC' hn hfl' hT' pre'
    (by rw [hbasis]; exact ho') M hM).1 r' h').2.2
  rw [hbasis] at a2
  exact ⟨hbasis, hnd, frobenius_lower hK hKK hla hprec (C45_base_ND hC) a1 a2⟩

end

/-- The quartic surface in characteristic 3 with the numbers of terms `[2, 1, 1]` and any two precisions `K <= K'`: both calls
return, and the matrix with `K` digits is the one with `K'` digits modulo `3^K`. -/
example {K K' : ℕ} (hK : 1 ≤ K) (hKK' : K ≤ K') (hprime : Fact (Nat.Prime 3)) {la la' : LinAlg (ZMod 3)} (hla : LinAlgOK la)
    (hla' : LinAlgOK la') :
    ∃ (D : DR (ZMod (3 ^ K))) (D' : DR (ZMod (3 ^ K'))),
      Constructed (padicSolver 3 K la true K) 3 (lowerPoly (pow_dvd_pow 3 hKK') (fermat4 (ZMod (3 ^ K')))) 3 4 D ∧
      Constructed (padicSolver 3 K' la' false K') 3 (fermat4 (ZMod (3 ^ K'))) 3 4 D' ∧
      ∃ r r', frobMatrixJ (padicSolver 3 K la true K) D 3 false (List.range D.basis.length) (fpowStart 3) [2, 1, 1] = .ok r ∧
        frobMatrixJ (padicSolver 3 K' la' false K') D' 3 true (List.range D.basis.length) (fpowStart 3) [2, 1, 1] = .ok r' ∧
        ∀ i k, i < D.basis.length → k < D.basis.length →
          r.1.e k i = ZMod.castHom (pow_dvd_pow 3 hKK') (ZMod (3 ^ K)) (r'.1.e k i) := by
  have hlow : lowerPoly (pow_dvd_pow 3 hKK') (fermat4 (ZMod (3 ^ K'))) = fermat4 (ZMod (3 ^ K)) := by
    simp only [lowerPoly, fermat4, List.map_cons, List.map_nil, map_one]
  rw [hlow]
  obtain ⟨h1, h2, h3⟩ := fermat4_wf (ZMod (3 ^ K))
  obtain ⟨h1', h2', h3'⟩ := fermat4_wf (ZMod (3 ^ K'))
  obtain ⟨D, hD⟩ := (fermat4_accepted (p := 3) (by norm_num) hK hla true).1
  obtain ⟨D', hD'⟩ := (fermat4_accepted (p := 3) (by norm_num) (by omega : 1 ≤ K') hla' false).1
  have hC : Constructed (padicSolver 3 K la true K) 3 (fermat4 (ZMod (3 ^ K))) 3 4 D :=
    ⟨padicSolver_ok hla true le_rfl, h1, h3, size_quartic, hD⟩
  have hC' : Constructed (padicSolver 3 K' la' false K') 3 (fermat4 (ZMod (3 ^ K'))) 3 4 D' :=
    ⟨padicSolver_ok hla' false le_rfl, h1', h3', size_quartic, hD'⟩
  have hbasis : D'.basis = D.basis := by
    have h1 := (C67_constructors hK (pow_dvd_pow 3 hKK') hla hla' true false (prec := K) (le_refl K') 3 (fermat4 (ZMod (3 ^ K')))).1
    rw [hlow, hD, hD'] at h1
    rw [Except.ok.inj h1]
  have hpole : ∀ b ∈ D.basis, 1 ≤ poleOrder 3 4 b ∧ poleOrder 3 4 b ≤ 3 := by
    intro b hb
    obtain ⟨i, hi⟩ := List.mem_iff_getElem?.1 hb
    obtain ⟨e1, e2, hI⟩ := hC.init
    have := basis_pole hI.basis (by have := hI.ok.hd; omega) hi
    rw [e1, e2] at this
    exact ⟨this.1, this.2.1⟩
  have hfac : ∀ b ∈ D.basis, ∀ Ni : ℤ, [(2 : ℤ), 1, 1][poleOrder 3 4 b - 1]? = some Ni → 0 < Ni →
      ¬ 3 ^ 3 ∣ (3 * (poleOrder 3 4 b + Ni.toNat - 1) - 1).factorial := by
    intro b hb Ni hNi hpos hd
    obtain ⟨hp1, hp2⟩ := hpole b hb
    generalize poleOrder 3 4 b = m at *
    interval_cases m
    · obtain rfl : (2 : ℤ) = Ni := by simpa using hNi
      revert hd; decide
    · obtain rfl : (1 : ℤ) = Ni := by simpa using hNi
      revert hd; decide
    · obtain rfl : (1 : ℤ) = Ni := by simpa using hNi
      revert hd; decide
  have hfit : ∀ x ∈ ([2, 1, 1] : List ℤ), TermsFit 3 x :=
    fun x hx => termsFit_three le_rfl ((by decide : ∀ x ∈ ([2, 1, 1] : List ℤ), x ≤ 50) x hx)
  obtain ⟨r, hr⟩ := (C64_frob_matrix_J_partial (p := 3) hK hC (by norm_num)
    (fun b hb => by have := hpole b hb; omega) (reached_start 3 _) false (List.Perm.refl _) [2, 1, 1] hfit).2.2 rfl hfac
  obtain ⟨r', hr'⟩ := (C64_frob_matrix_J_partial (p := 3) (by omega : 1 ≤ K') hC' (by norm_num)
    (fun b hb => by rw [hbasis] at hb; have := hpole b hb; omega) (reached_start 3 _) true
    (List.Perm.refl _) [2, 1, 1] hfit).2.2 rfl (by rw [hbasis]; exact hfac)
  rw [hbasis] at hr'
  refine ⟨D, D', hC, hC', r, r', hr, hr', ?_⟩
  refine (C67_frob_matrix_J_partial hK hKK' (pow_dvd_pow 3 hKK') hla hla' le_rfl le_rfl (by norm_num) (by norm_num)
    (by rw [hlow]; exact hC) hC' (by rw [hlow]; exact reached_start 3 _) (reached_start 3 _) false true (List.Perm.refl _)
    (List.Perm.refl _) hfit hr hr').2.2 (fun ⟨b, hb, Ni, h1, h2, h3⟩ => hfac b hb Ni h1 h2 h3)

end Verif
