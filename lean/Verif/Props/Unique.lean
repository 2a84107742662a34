import Verif.Props.Paths
import Verif.Props.Pipeline

/-!
Property C66: the conditions on the Frobenius matrix determine it.  The basis of the object is a basis of the classes, coordinates
are unique, and `frob_matrix_J` and `frob_matrix_ND` compute the same matrix.
-/

namespace Verif

open Spec MvPolynomial

section

variable {p N : ℕ} [hprime : Fact p.Prime]

theorem combo_sub (n : ℕ) {R : Type} [CommRing R] (L : List IVec) (G H : ℕ → R) :
    combo n L (fun i => G i - H i) = combo n L G - combo n L H := by
  simp only [combo, sub_smul, Finset.sum_sub_distrib]

theorem combo_smul (n : ℕ) {R : Type} [CommRing R] (L : List IVec) (a : R) (G : ℕ → R) :
    combo n L (fun i => a * G i) = a • combo n L G := by
  simp only [combo, mul_smul, Finset.smul_sum]

/-- The exponents of a monomial, each raised by one. -/
theorem raised_list {n k d e : ℕ} (a : Fin (n + 1) →₀ ℕ) (ha : a.degree = e) (he : e + (n + 1) = k * d) :
    ∃ u : IVec, u.length = n + 1 ∧ (∀ x ∈ u, 0 < x) ∧ u.sum = (k * d : ℕ) ∧
      (fun i => ev n u i - 1) = fun i => (a i : ℤ) := by
  refine ⟨List.ofFn (fun i => (a i : ℤ) + 1), by simp, ?_, ?_, ?_⟩
  · intro x hx
    obtain ⟨i, rfl⟩ := List.mem_ofFn.1 hx
    omega
  · rw [List.sum_ofFn, Finset.sum_add_distrib, ← he, ← ha, Finsupp.degree_eq_sum]
    simp
  · funext i
    rw [ev, List.getD_eq_getElem?_getD, List.getElem?_ofFn, dif_pos i.isLt]
    simp

/-- **C66 (basis).**  For every object of the constructor every form of degree `k d - (n+1)`, `k >= 1`, has coordinates in the
basis, and only one vector of coordinates. -/
theorem C66_basis (hN : 1 ≤ N) {la : LinAlg (ZMod p)} (hla : LinAlgOK la) {flint : Bool} {precision : ℕ}
    (hprec : N ≤ precision) {q n d : ℕ} {f : MonMap (ZMod (p ^ N))} {D : DR (ZMod (p ^ N))}
    (hC : Constructed (padicSolver p N la flint precision) q f n d D) (hn : 1 ≤ n) {k e : ℕ} (he : e + (n + 1) = k * d)
    {G : MvPolynomial (Fin (n + 1)) (ZMod (p ^ N))} (hG : G.IsHomogeneous e) :
    ∃ c : ℕ → ZMod (p ^ N), G - combo n D.basis c ∈ scaledExact (toPoly (n + 1) f) d ∧
      ∀ c' : ℕ → ZMod (p ^ N), G - combo n D.basis c' ∈ scaledExact (toPoly (n + 1) f) d →
        ∀ r, r < D.basis.length → c' r = c r := by
  have hnt := nontrivial_pow (p := p) hN
  have hex : ∃ c : ℕ → ZMod (p ^ N), G - combo n D.basis c ∈ scaledExact (toPoly (n + 1) f) d := by
    rw [G.as_sum]
    refine Finset.sum_induction _
      (fun G => ∃ c : ℕ → ZMod (p ^ N), G - combo n D.basis c ∈ scaledExact (toPoly (n + 1) f) d) ?_ ?_ ?_
    · rintro A B ⟨c, hc⟩ ⟨c', hc'⟩
      refine ⟨fun i => c i + c' i, ?_⟩
      rw [combo_add]
      have := Submodule.add_mem _ hc hc'
      rwa [show A - combo n D.basis c + (B - combo n D.basis c') =
        A + B - (combo n D.basis c + combo n D.basis c') by abel] at this
    · refine ⟨fun _ => 0, ?_⟩
      simp [combo]
    · intro a ha
      obtain ⟨u, h1, h2, h3, h4⟩ := raised_list a (by
        have := hG (MvPolynomial.mem_support_iff.1 ha)
        exact this ▸ DFunLike.congr_fun Finsupp.degree_eq_weight_one a) he
      obtain ⟨rfl, rfl, hI⟩ := hC.init
      obtain ⟨H, c, -, -, -, hc⟩ := monomialToBasisJ_ok hC.solver hI.ok hI.top hI.basis hn h1 h2 k (by
        rw [h3]; push_cast; rfl)
      have ha' : Finsupp.equivFunOnFinite.symm (fun i => ((a i : ℕ) : ℤ).toNat) = a := by ext i; simp
      rw [h4, xpow_of_nonneg (fun i => Int.natCast_nonneg _), ha'] at hc
      refine ⟨fun r => coeff a G * c r, ?_⟩
      have hpoly : DRpoly D = toPoly (D.n + 1) f := by rw [DRpoly, hI.f_eq]
      rw [scaledExact_eq, ← hpoly, combo_smul]
      have := Submodule.smul_mem _ (coeff a G) hc
      rw [smul_sub, smul_monomial, smul_eq_mul, mul_one] at this
      exact this
  obtain ⟨c, hc⟩ := hex
  refine ⟨c, hc, fun c' hc' r hr => ?_⟩
  have hdiff : combo n D.basis (fun i => c' i - c i) ∈ scaledExact (toPoly (n + 1) f) d := by
    rw [combo_sub]
    have := Submodule.sub_mem _ hc hc'
    rwa [show G - combo n D.basis c - (G - combo n D.basis c') = combo n D.basis c' - combo n D.basis c by abel] at this
  rw [scaledExact_eq] at hdiff
  exact sub_eq_zero.1 (C25_basis_independent hN la hla flint precision hprec hC _ hdiff r hr)

/-- What is left of a factorial without its powers of `p` is a unit modulo `p^N`. -/
theorem unit_part (a : ℕ) : IsUnit ((a.factorial / p ^ padicValNat p a.factorial : ℕ) : ZMod (p ^ N)) := by
  have hp := hprime.out
  rw [ZMod.isUnit_iff_coprime]
  refine Nat.Coprime.pow_right _ ((Nat.Prime.coprime_iff_not_dvd hp).2 ?_).symm
  rw [← Nat.factorization_def _ hp]
  exact Nat.not_dvd_ordCompl hp (Nat.factorial_ne_zero a)

/-- **C66 (column).**  Two vectors meeting the condition of a Frobenius column agree up to the digits lost in the exact
division: after multiplication with `p^(v-(n-1))`, where `p^v` is the power of `p` in `(p(m+N-1)-1)!`. -/
theorem C66_column_unique (hN : 1 ≤ N) {la : LinAlg (ZMod p)} (hla : LinAlgOK la) {flint : Bool} {precision : ℕ}
    (hprec : N ≤ precision) {q n d : ℕ} {f : MonMap (ZMod (p ^ N))} {D : DR (ZMod (p ^ N))}
    (hC : Constructed (padicSolver p N la flint precision) q f n d D) {m Nm : ℕ} {b : Fin (n + 1) → ℤ}
    {F G : ℕ → ZMod (p ^ N)} (hF : FrobColumn (toPoly (n + 1) f) d p D.basis m Nm b F)
    (hG : FrobColumn (toPoly (n + 1) f) d p D.basis m Nm b G) (r : ℕ) (hr : r < D.basis.length) :
    (p : ZMod (p ^ N)) ^ (padicValNat p (frobFact p m Nm) - (n - 1)) * F r =
      (p : ZMod (p ^ N)) ^ (padicValNat p (frobFact p m Nm) - (n - 1)) * G r := by
  obtain ⟨c, hc, hF⟩ := hF
  obtain ⟨c', hc', hG⟩ := hG
  have hdiff : combo n D.basis (fun i => c' i - c i) ∈ scaledExact (toPoly (n + 1) f) d := by
    rw [combo_sub]
    have := Submodule.sub_mem _ hc hc'
    rwa [show ∀ s : MvPolynomial (Fin (n + 1)) (ZMod (p ^ N)), s - combo n D.basis c - (s - combo n D.basis c') =
      combo n D.basis c' - combo n D.basis c by intro s; abel] at this
  rw [scaledExact_eq] at hdiff
  have hcc := sub_eq_zero.1 (C25_basis_independent hN la hla flint precision hprec hC _ hdiff r hr)
  have h := (hF r hr).trans ((congrArg _ hcc.symm).trans (hG r hr).symm)
  rw [Nat.cast_mul, Nat.cast_pow, mul_assoc, mul_assoc] at h
  exact (unit_part (p := p) (N := N) (p * (m + Nm - 1) - 1)).mul_left_cancel h

/-- **C66 (the two routines).**  For every non-degenerate object with `n < 2 p`, and numbers of terms whose coefficients fit: whenever
`frob_matrix_J`, called on the base class, and `frob_matrix_ND` both return, with any tables and any order of the parallel loops,
the columns agree up to the digits lost in the exact division. -/
theorem C66_J_ND_partial (hN : 1 ≤ N) {la : LinAlg (ZMod p)} (hla : LinAlgOK la) {flint : Bool} {precision : ℕ}
    (hprec : N ≤ precision) {q n d : ℕ} {f : MonMap (ZMod (p ^ N))} {D : ND (ZMod (p ^ N))}
    (hC : ConstructedND (padicSolver p N la flint precision) q f n d D) (hn : 1 ≤ n) (hn2 : n < 2 * p)
    (hfl : FlintBatchOK (p ^ N) p n d (padicSolver p N la flint precision) D)
    {T T' : List (MonMap (ZMod (p ^ N)))} (hT : Reached n f T) (hT' : Reached n f T') (pre pre' : Bool) {order order' : List ℕ}
    (ho : order.Perm (List.range D.basis.length)) (ho' : order'.Perm (List.range D.basis.length)) {M : List ℤ}
    (hM : ∀ x ∈ M, TermsFit n x) {r r' : CMat (ZMod (p ^ N)) × List (MonMap (ZMod (p ^ N)))}
    (h : frobMatrixJ (padicSolver p N la flint precision) D.toDR p pre order T M = .ok r)
    (h' : frobMatrixND (padicSolver p N la flint precision) D p pre' order' T' M = .ok r') :
    (∀ (i : ℕ) b, D.basis[i]? = some b → ∀ Ni : ℤ, M[poleOrder n d b - 1]? = some Ni → ∀ k, k < D.basis.length →
      (p : ZMod (p ^ N)) ^ (padicValNat p (frobFact p (poleOrder n d b) Ni.toNat) - (n - 1)) * r.1.e k i =
      (p : ZMod (p ^ N)) ^ (padicValNat p (frobFact p (poleOrder n d b) Ni.toNat) - (n - 1)) * r'.1.e k i) ∧
    (¬ DivisionMayFail p n d D.basis M → ∀ i k, i < D.basis.length → k < D.basis.length → r.1.e k i = r'.1.e k i) := by
  have hCJ := C45_base_ND hC
  have hpole : ∀ b ∈ D.basis, 1 ≤ poleOrder n d b := by
    intro b hb
    obtain ⟨i, hi⟩ := List.mem_iff_getElem?.1 hb
    obtain ⟨e1, e2, hI⟩ := hC.init
    have := (basis_pole hI.base.basis (by have := hI.base.ok.hd; omega) hi).1
    rwa [e1, e2] at this
  have hdiv : n / p ≤ 1 := by
    have := (Nat.div_lt_iff_lt_mul hprime.out.pos).2 hn2
    omega
  obtain ⟨-, -, a1⟩ := (C64_frob_matrix_J_partial (p := p) hN hCJ hn
    (fun b hb => by have := hpole b hb; omega) hT pre ho M hM).1 r h
  obtain ⟨-, -, a2⟩ := (C64_frob_matrix_ND_partial (p := p) hN hC hn hfl hT' pre' ho' M hM).1 r' h'
  have key : ∀ (i : ℕ) b, D.basis[i]? = some b → ∀ Ni : ℤ, M[poleOrder n d b - 1]? = some Ni → ∀ k, k < D.basis.length →
      (p : ZMod (p ^ N)) ^ (padicValNat p (frobFact p (poleOrder n d b) Ni.toNat) - (n - 1)) * r.1.e k i =
      (p : ZMod (p ^ N)) ^ (padicValNat p (frobFact p (poleOrder n d b) Ni.toNat) - (n - 1)) * r'.1.e k i := by
    intro i b hb Ni hNi k hk
    obtain ⟨N1, b1, b2, b3⟩ := a1 i b hb
    obtain ⟨N2, c1, c2, c3⟩ := a2 i b hb
    obtain rfl : N1 = Ni := Option.some.inj (b1.symm.trans hNi)
    obtain rfl : N2 = N1 := Option.some.inj (c1.symm.trans hNi)
    rcases le_or_gt N2 0 with h0 | h0
    · rw [b2 h0 k hk, c2 h0 k hk]
    · exact C66_column_unique hN hla hprec hCJ (b3 h0) (c3 h0) k hk
  refine ⟨key, fun hno i k hi hk => ?_⟩
  have hb : D.basis[i]? = some D.basis[i] := List.getElem?_eq_getElem hi
  obtain ⟨Ni, hNi, -, -⟩ := a1 i _ hb
  have hv : padicValNat p (frobFact p (poleOrder n d D.basis[i]) Ni.toNat) - (n - 1) = 0 ∨ Ni ≤ 0 := by
    rcases le_or_gt Ni 0 with h0 | h0
    · exact Or.inr h0
    left
    by_contra hv
    refine hno ⟨_, List.getElem_mem hi, Ni, hNi, h0, ?_⟩
    refine (padicValNat_dvd_iff_le (Nat.factorial_ne_zero _)).2 ?_
    have : frobFact p (poleOrder n d D.basis[i]) Ni.toNat =
      (p * (poleOrder n d D.basis[i] + Ni.toNat - 1) - 1).factorial := rfl
    rw [this] at hv
    omega
  rcases hv with hv | h0
  · have := key i _ hb Ni hNi k hk
    rwa [hv, pow_zero, one_mul, one_mul] at this
  · obtain ⟨N1, b1, b2, -⟩ := a1 i _ hb
    obtain ⟨N2, c1, c2, -⟩ := a2 i _ hb
    obtain rfl : N1 = Ni := Option.some.inj (b1.symm.trans hNi)
    obtain rfl : N2 = N1 := Option.some.inj (c1.symm.trans hNi)
    rw [b2 h0 k hk, c2 h0 k hk]

end

/-- The quartic surface `x^4 + y^4 + z^4 + w^4` in characteristic 3, with every precision and the numbers of terms `[2, 1, 1]`: both
routines return, and they return the same matrix. -/
example {K : ℕ} (hK : 1 ≤ K) (hprime : Fact (Nat.Prime 3)) {la : LinAlg (ZMod 3)} (hla : LinAlgOK la) (flint pre pre' : Bool) :
    ∃ D : ND (ZMod (3 ^ K)), ConstructedND (padicSolver 3 K la flint K) 3 (fermat4 (ZMod (3 ^ K))) 3 4 D ∧
      ∃ r r', frobMatrixJ (padicSolver 3 K la flint K) D.toDR 3 pre (List.range D.basis.length) (fpowStart 3) [2, 1, 1] = .ok r ∧
        frobMatrixND (padicSolver 3 K la flint K) D 3 pre' (List.range D.basis.length) (fpowStart 3) [2, 1, 1] = .ok r' ∧
        ∀ i k, i < D.basis.length → k < D.basis.length → r.1.e k i = r'.1.e k i := by
  obtain ⟨h1, h2, h3⟩ := fermat4_wf (ZMod (3 ^ K))
  obtain ⟨D, hD⟩ := (fermat4_accepted (p := 3) (by norm_num) hK hla flint).2
  have hC : ConstructedND (padicSolver 3 K la flint K) 3 (fermat4 (ZMod (3 ^ K))) 3 4 D :=
    ⟨padicSolver_ok hla flint le_rfl, h1, h3, size_quartic, hD⟩
  have hfl : FlintBatchOK (3 ^ K) 3 3 4 (padicSolver 3 K la flint K) D := Or.inr (Or.inl (by norm_num))
  have hpole : ∀ b ∈ D.basis, 1 ≤ poleOrder 3 4 b ∧ poleOrder 3 4 b ≤ 3 := by
    intro b hb
    obtain ⟨i, hi⟩ := List.mem_iff_getElem?.1 hb
    obtain ⟨e1, e2, hI⟩ := hC.init
    have := basis_pole hI.base.basis (by have := hI.base.ok.hd; omega) hi
    rw [e1, e2] at this
    exact ⟨this.1, this.2.1⟩
  have hfac : ∀ b ∈ D.basis, ∀ Ni : ℤ, [(2 : ℤ), 1, 1][poleOrder 3 4 b - 1]? = some Ni → 0 < Ni →
      ¬ 3 ^ 3 ∣ (3 * (poleOrder 3 4 b + Ni.toNat - 1) - 1).factorial := by
    intro b hb Ni hNi hpos hd
    obtain ⟨hp1, hp2⟩ := hpole b hb
    generalize poleOrder 3 4 b = m at *
    interval_cases m
    · obtain rfl : (2 : ℤ) = Ni := by simpa using hNi
      revert hd; decide
    · obtain rfl : (1 : ℤ) = Ni := by simpa using hNi
      revert hd; decide
    · obtain rfl : (1 : ℤ) = Ni := by simpa using hNi
      revert hd; decide
  have hfit : ∀ x ∈ ([2, 1, 1] : List ℤ), TermsFit 3 x :=
    fun x hx => termsFit_three le_rfl ((by decide : ∀ x ∈ ([2, 1, 1] : List ℤ), x ≤ 50) x hx)
  obtain ⟨r, hr⟩ := (C64_frob_matrix_J_partial (p := 3) hK (C45_base_ND hC) (by norm_num)
    (fun b hb => by have := hpole b hb; omega) (reached_start 3 _) pre (List.Perm.refl _) [2, 1, 1] hfit).2.2 rfl hfac
  obtain ⟨r', hr'⟩ := (C64_frob_matrix_ND_partial (p := 3) hK hC (by norm_num) hfl (reached_start 3 _) pre'
    (List.Perm.refl _) [2, 1, 1] hfit).2.2 rfl hfac
  exact ⟨D, hC, r, r', hr, hr', (C66_J_ND_partial hK hla le_rfl hC (by norm_num) (by norm_num) hfl (reached_start 3 _)
    (reached_start 3 _) pre pre' (List.Perm.refl _) (List.Perm.refl _) hfit hr hr').2
    (fun ⟨b, hb, Ni, h1, h2, h3⟩ => hfac b hb Ni h1 h2 h3)⟩

end Verif
