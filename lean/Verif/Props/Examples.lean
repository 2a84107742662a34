import Verif.Props.Programs
import Verif.Props.TestPrograms
import Verif.Props.ZetaRun
import Verif.Model.Examples
import Verif.Spec.Examples
import Verif.Lemmas.ExampleQuartics

/-!
# C78: the example inputs
-/

namespace Verif

open Spec MvPolynomial

/-! ### What is read -/

/-- The vector in the two input files of the plane quartic. -/
def curveVec : List ℤ := [1, 6, -2, 75, 1, 0, -2, -1, 1, 5, 0, -1, 0, -3, 15]

/-- The vector in the input file of the quartic surface. -/
def surfaceVec : List ℤ :=
  [0, -1, 0, 1, 0, 0, 0, 0, 0, 0, 0, 0, 0, 0, 0, 0, 0, 0, 0, 0, 0, 0, 0, 0, -1, 0, 0, 0, 0, 0, 0, 0, 0, 1, 0]

/-- The monomials of degree 4 in three variables. -/
def planeQuartics : List IVec :=
  [[0, 0, 4], [0, 1, 3], [0, 2, 2], [0, 3, 1], [0, 4, 0], [1, 0, 3], [1, 1, 2], [1, 2, 1], [1, 3, 0], [2, 0, 2], [2, 1, 1],
    [2, 2, 0], [3, 0, 1], [3, 1, 0], [4, 0, 0]]

theorem planeQuartics_isTable : IsTable 2 (4 : ℕ) planeQuartics := by
  have h := tupleListGenerator_eq 4 2 (by decide)
  rw [show tupleListGenerator ((4 : ℕ) : ℤ) (2 + 1) = .ok planeQuartics by decide +kernel] at h
  exact (Except.ok.inj h).symm ▸ comps_isTable 2 4

theorem read_of_check {s : Str} {x : FrobInput} (h : (match readFrobInput s with | .ok y => decide (y = x) | _ => false) = true) :
    readFrobInput s = .ok x := by
  split at h
  · rename_i y hy
    rw [hy, of_decide_eq_true h]
  · cases h

/-- **C78 (inputs).**  What the programs read: the primes, precisions and polynomials; the vectors of coefficients stand for the
polynomials in the Spec.  The two files for the plane quartic differ in the precision and in the numbers of terms only. -/
theorem C78_read :
    readFrobInput curveFile.toList = .ok ⟨17, 3, 2, 4, curveVec, [2, 2], [4, 3, 2, 2, 2, 2, 2]⟩ ∧
    readFrobInput modpFile.toList = .ok ⟨17, 1, 2, 4, curveVec, [0, 1], [4, 3, 2, 2, 2, 2, 2]⟩ ∧
    (∃ a, defaultArgs 5 3 4 = .ok a ∧
      readFrobInput surfaceFile.toList = .ok ⟨5, a.precision, 3, 4, surfaceVec, a.N, a.charpolyPrec⟩) ∧
    toPoly (2 + 1) (planeQuartics.zip (curveVec.map (fun c : ℤ => (c : ZMod 17)))) = toPoly (2 + 1) (reduceCoeffs 17 curvePoly) ∧
    toPoly (3 + 1) (quartics.zip (surfaceVec.map (fun c : ℤ => (c : ZMod 5)))) = toPoly (3 + 1) (reduceCoeffs 5 surfacePoly) ∧
    ∀ {α : Type} (zeta : MonMap Int → Int → Res α), zetaStr zeta genus3Example.toList = zeta genus3Poly 17 ∧
      zetaStr zeta k3Example.toList = zeta k3Poly 23 := by
  refine ⟨read_of_check (by decide +kernel), read_of_check (by decide +kernel),
    ⟨_, rfl, read_of_check (by decide +kernel)⟩, ?_, ?_, fun zeta => ⟨zetaStr_of_check zeta (by decide +kernel),
      zetaStr_of_check zeta (by decide +kernel)⟩⟩
  · have : Fact (Nat.Prime 17) := ⟨by norm_num⟩
    rw [← toPoly_filter]
    exact congrArg _ (by decide +kernel)
  · have : Fact (Nat.Prime 5) := ⟨by norm_num⟩
    rw [← toPoly_filter]
    exact congrArg _ (by decide +kernel)

/-! ### Smoothness -/

section

variable {p : ℕ} {K : Type} [Field K] [Algebra (ZMod p) K]

theorem deriv3 (x : Fin (2 + 1) → K) (a b c z : ℤ) :
    aeval x (pderiv 0 (monomial (expo (2 + 1) [a, b, c]) (z : ZMod p))) =
      z * (a.toNat * x 0 ^ (a.toNat - 1) * x 1 ^ b.toNat * x 2 ^ c.toNat) ∧
    aeval x (pderiv 1 (monomial (expo (2 + 1) [a, b, c]) (z : ZMod p))) =
      z * (b.toNat * x 0 ^ a.toNat * x 1 ^ (b.toNat - 1) * x 2 ^ c.toNat) ∧
    aeval x (pderiv 2 (monomial (expo (2 + 1) [a, b, c]) (z : ZMod p))) =
      z * (c.toNat * x 0 ^ a.toNat * x 1 ^ b.toNat * x 2 ^ (c.toNat - 1)) := by
  refine ⟨?_, ?_, ?_⟩ <;>
  · rw [pderiv_monomial, aeval_monomial]
    simp [expo_apply, Finsupp.prod_fintype, Fin.prod_univ_three]
    ring

theorem deriv4 (x : Fin (3 + 1) → K) (a b c d z : ℤ) :
    aeval x (pderiv 0 (monomial (expo (3 + 1) [a, b, c, d]) (z : ZMod p))) =
      z * (a.toNat * x 0 ^ (a.toNat - 1) * x 1 ^ b.toNat * x 2 ^ c.toNat * x 3 ^ d.toNat) ∧
    aeval x (pderiv 1 (monomial (expo (3 + 1) [a, b, c, d]) (z : ZMod p))) =
      z * (b.toNat * x 0 ^ a.toNat * x 1 ^ (b.toNat - 1) * x 2 ^ c.toNat * x 3 ^ d.toNat) ∧
    aeval x (pderiv 2 (monomial (expo (3 + 1) [a, b, c, d]) (z : ZMod p))) =
      z * (c.toNat * x 0 ^ a.toNat * x 1 ^ b.toNat * x 2 ^ (c.toNat - 1) * x 3 ^ d.toNat) ∧
    aeval x (pderiv 3 (monomial (expo (3 + 1) [a, b, c, d]) (z : ZMod p))) =
      z * (d.toNat * x 0 ^ a.toNat * x 1 ^ b.toNat * x 2 ^ c.toNat * x 3 ^ (d.toNat - 1)) := by
  refine ⟨?_, ?_, ?_, ?_⟩ <;>
  · rw [pderiv_monomial, aeval_monomial]
    simp [expo_apply, Finsupp.prod_fintype, Fin.prod_univ_four]
    ring

end

theorem char_zero {p : ℕ} (K : Type) [Field K] [Algebra (ZMod p) K] : ((p : ℕ) : K) = 0 := by
  have := congrArg (algebraMap (ZMod p) K) (ZMod.natCast_self p)
  rwa [map_natCast, map_zero] at this

theorem toNat_lits : Int.toNat 0 = 0 ∧ Int.toNat 1 = 1 ∧ Int.toNat 2 = 2 ∧ Int.toNat 3 = 3 ∧ Int.toNat 4 = 4 := ⟨rfl, rfl, rfl, rfl, rfl⟩

theorem curve_deriv {K : Type} [Field K] [Algebra (ZMod 17) K] (x : Fin (2 + 1) → K) :
    aeval x (pderiv 0 (toPoly (2 + 1) (reduceCoeffs 17 curvePoly))) =
      -2 * x 1 * x 2 ^ 2 - x 1 ^ 2 * x 2 + x 1 ^ 3 + 10 * x 0 * x 2 ^ 2 - 2 * x 0 * x 1 ^ 2 - 9 * x 0 ^ 2 * x 1 + 60 * x 0 ^ 3 ∧
    aeval x (pderiv 1 (toPoly (2 + 1) (reduceCoeffs 17 curvePoly))) =
      6 * x 2 ^ 3 - 4 * x 1 * x 2 ^ 2 + 225 * x 1 ^ 2 * x 2 + 4 * x 1 ^ 3 - 2 * x 0 * x 2 ^ 2 - 2 * x 0 * x 1 * x 2 + 3 * x 0 * x 1 ^ 2 - 2 * x 0 ^ 2 * x 1 - 3 * x 0 ^ 3 ∧
    aeval x (pderiv 2 (toPoly (2 + 1) (reduceCoeffs 17 curvePoly))) =
      4 * x 2 ^ 3 + 18 * x 1 * x 2 ^ 2 - 4 * x 1 ^ 2 * x 2 + 75 * x 1 ^ 3 - 4 * x 0 * x 1 * x 2 - x 0 * x 1 ^ 2 + 10 * x 0 ^ 2 * x 2 := by
  obtain ⟨t0, t1, t2, t3, t4⟩ := toNat_lits
  simp only [curvePoly, reduceCoeffs, List.map_cons, List.map_nil, toPoly_cons, toPoly_nil, map_add, map_zero,
    fun a b c z => (deriv3 (p := 17) x a b c z).1, fun a b c z => (deriv3 (p := 17) x a b c z).2.1,
    fun a b c z => (deriv3 (p := 17) x a b c z).2.2, t0, t1, t2, t3, t4]
  norm_num
  refine ⟨?_, ?_, ?_⟩ <;> ring

theorem genus3_deriv {K : Type} [Field K] [Algebra (ZMod 17) K] (x : Fin (2 + 1) → K) :
    aeval x (pderiv 0 (toPoly (2 + 1) (reduceCoeffs 17 genus3Poly))) =
      -4 * x 2 ^ 3 - 3 * x 1 * x 2 ^ 2 - 3 * x 1 ^ 2 * x 2 - 4 * x 1 ^ 3 + 2 * x 0 * x 2 ^ 2 + 6 * x 0 * x 1 * x 2 + 2 * x 0 * x 1 ^ 2 + 3 * x 0 ^ 2 * x 2 + 3 * x 0 ^ 2 * x 1 ∧
    aeval x (pderiv 1 (toPoly (2 + 1) (reduceCoeffs 17 genus3Poly))) =
      6 * x 1 * x 2 ^ 2 + 8 * x 1 ^ 3 - 3 * x 0 * x 2 ^ 2 - 6 * x 0 * x 1 * x 2 - 12 * x 0 * x 1 ^ 2 + 3 * x 0 ^ 2 * x 2 + 2 * x 0 ^ 2 * x 1 + x 0 ^ 3 ∧
    aeval x (pderiv 2 (toPoly (2 + 1) (reduceCoeffs 17 genus3Poly))) =
      8 * x 2 ^ 3 + 6 * x 1 ^ 2 * x 2 - 12 * x 0 * x 2 ^ 2 - 6 * x 0 * x 1 * x 2 - 3 * x 0 * x 1 ^ 2 + 2 * x 0 ^ 2 * x 2 + 3 * x 0 ^ 2 * x 1 + x 0 ^ 3 := by
  obtain ⟨t0, t1, t2, t3, t4⟩ := toNat_lits
  simp only [genus3Poly, reduceCoeffs, List.map_cons, List.map_nil, toPoly_cons, toPoly_nil, map_add, map_zero,
    fun a b c z => (deriv3 (p := 17) x a b c z).1, fun a b c z => (deriv3 (p := 17) x a b c z).2.1,
    fun a b c z => (deriv3 (p := 17) x a b c z).2.2, t0, t1, t2, t3, t4]
  norm_num
  refine ⟨?_, ?_, ?_⟩ <;> ring

theorem k3_deriv {K : Type} [Field K] [Algebra (ZMod 23) K] (x : Fin (3 + 1) → K) :
    aeval x (pderiv 0 (toPoly (3 + 1) (reduceCoeffs 23 k3Poly))) = 4 * x 0 ^ 3 + 3 * x 0 ^ 2 * x 1 + x 1 ^ 3 ∧
    aeval x (pderiv 1 (toPoly (3 + 1) (reduceCoeffs 23 k3Poly))) = x 0 ^ 3 + 3 * x 0 * x 1 ^ 2 ∧
    aeval x (pderiv 2 (toPoly (3 + 1) (reduceCoeffs 23 k3Poly))) = 3 * x 2 ^ 2 * x 3 + x 3 ^ 3 ∧
    aeval x (pderiv 3 (toPoly (3 + 1) (reduceCoeffs 23 k3Poly))) = x 2 ^ 3 + 3 * x 2 * x 3 ^ 2 := by
  obtain ⟨t0, t1, t2, t3, t4⟩ := toNat_lits
  simp only [k3Poly, reduceCoeffs, List.map_cons, List.map_nil, toPoly_cons, toPoly_nil, map_add, map_zero,
    fun a b c d z => (deriv4 (p := 23) x a b c d z).1, fun a b c d z => (deriv4 (p := 23) x a b c d z).2.1,
    fun a b c d z => (deriv4 (p := 23) x a b c d z).2.2.1, fun a b c d z => (deriv4 (p := 23) x a b c d z).2.2.2, t0, t1, t2, t3, t4]
  norm_num
  refine ⟨?_, ?_, ?_, ?_⟩ <;> ring

theorem surface_deriv {K : Type} [Field K] [Algebra (ZMod 5) K] (x : Fin (3 + 1) → K) :
    aeval x (pderiv 0 (toPoly (3 + 1) (reduceCoeffs 5 surfacePoly))) = 3 * x 0 ^ 2 * x 1 - x 1 ^ 3 ∧
    aeval x (pderiv 1 (toPoly (3 + 1) (reduceCoeffs 5 surfacePoly))) = x 0 ^ 3 - 3 * x 0 * x 1 ^ 2 ∧
    aeval x (pderiv 2 (toPoly (3 + 1) (reduceCoeffs 5 surfacePoly))) = 3 * x 2 ^ 2 * x 3 - x 3 ^ 3 ∧
    aeval x (pderiv 3 (toPoly (3 + 1) (reduceCoeffs 5 surfacePoly))) = x 2 ^ 3 - 3 * x 2 * x 3 ^ 2 := by
  obtain ⟨t0, t1, t2, t3, t4⟩ := toNat_lits
  simp only [surfacePoly, reduceCoeffs, List.map_cons, List.map_nil, toPoly_cons, toPoly_nil, map_add, map_zero,
    fun a b c d z => (deriv4 (p := 5) x a b c d z).1, fun a b c d z => (deriv4 (p := 5) x a b c d z).2.1,
    fun a b c d z => (deriv4 (p := 5) x a b c d z).2.2.1, fun a b c d z => (deriv4 (p := 5) x a b c d z).2.2.2, t0, t1, t2, t3, t4]
  norm_num
  refine ⟨?_, ?_, ?_, ?_⟩ <;> ring

instance fact17 : Fact (Nat.Prime 17) := ⟨by norm_num⟩

instance fact23 : Fact (Nat.Prime 23) := ⟨by norm_num⟩

instance fact5 : Fact (Nat.Prime 5) := ⟨by norm_num⟩

/-- **C78 (smooth).**  The four polynomials are smooth modulo their primes, so none is rejected. -/
theorem C78_smooth :
    NoCommonZero.{0} (fun i => pderiv i (toPoly (2 + 1) (reduceCoeffs 17 curvePoly))) ∧
    NoCommonZero.{0} (fun i => pderiv i (toPoly (2 + 1) (reduceCoeffs 17 genus3Poly))) ∧
    NoCommonZero.{0} (fun i => pderiv i (toPoly (3 + 1) (reduceCoeffs 23 k3Poly))) ∧
    NoCommonZero.{0} (fun i => pderiv i (toPoly (3 + 1) (reduceCoeffs 5 surfacePoly))) := by
  refine ⟨?_, ?_, ?_, ?_⟩ <;> intro K _ _ x hx
  · have h17 : (17 : K) = 0 := by exact_mod_cast char_zero (p := 17) K
    obtain ⟨d0, d1, d2⟩ := curve_deriv x
    obtain ⟨h0, h1, h2⟩ := curve_zero h17 (d0.symm.trans (hx 0)) (d1.symm.trans (hx 1)) (d2.symm.trans (hx 2))
    funext i
    fin_cases i
    · exact h0
    · exact h1
    · exact h2
  · have h17 : (17 : K) = 0 := by exact_mod_cast char_zero (p := 17) K
    obtain ⟨d0, d1, d2⟩ := genus3_deriv x
    obtain ⟨h0, h1, h2⟩ := genus3_zero h17 (d0.symm.trans (hx 0)) (d1.symm.trans (hx 1)) (d2.symm.trans (hx 2))
    funext i
    fin_cases i
    · exact h0
    · exact h1
    · exact h2
  · have h23 : (23 : K) = 0 := by exact_mod_cast char_zero (p := 23) K
    obtain ⟨d0, d1, d2, d3⟩ := k3_deriv x
    obtain ⟨h0, h1, h2, h3⟩ := k3_zero h23 (d0.symm.trans (hx 0)) (d1.symm.trans (hx 1)) (d2.symm.trans (hx 2)) (d3.symm.trans (hx 3))
    funext i
    fin_cases i
    · exact h0
    · exact h1
    · exact h2
    · exact h3
  · have h5 : (5 : K) = 0 := by exact_mod_cast char_zero (p := 5) K
    obtain ⟨d0, d1, d2, d3⟩ := surface_deriv x
    obtain ⟨h0, h1, h2, h3⟩ := surface_zero h5 (d0.symm.trans (hx 0)) (d1.symm.trans (hx 1)) (d2.symm.trans (hx 2))
      (d3.symm.trans (hx 3))
    funext i
    fin_cases i
    · exact h0
    · exact h1
    · exact h2
    · exact h3

/-- **C78 (degenerate).**  The plane quartic of the input files is non-degenerate in the given coordinates, so no random number is
drawn for it; the other three polynomials are degenerate, and the random search is started. -/
theorem C78_degenerate :
    NoCommonZero.{0} (fun i => (X i : MvPolynomial (Fin (2 + 1)) (ZMod 17)) * pderiv i (toPoly (2 + 1) (reduceCoeffs 17 curvePoly))) ∧
    ¬ NoCommonZero.{0} (fun i => (X i : MvPolynomial (Fin (2 + 1)) (ZMod 17)) * pderiv i (toPoly (2 + 1) (reduceCoeffs 17 genus3Poly))) ∧
    ¬ NoCommonZero.{0} (fun i => (X i : MvPolynomial (Fin (3 + 1)) (ZMod 23)) * pderiv i (toPoly (3 + 1) (reduceCoeffs 23 k3Poly))) ∧
    ¬ NoCommonZero.{0} (fun i => (X i : MvPolynomial (Fin (3 + 1)) (ZMod 5)) * pderiv i (toPoly (3 + 1) (reduceCoeffs 5 surfacePoly))) := by
  refine ⟨?_, ?_, ?_, ?_⟩
  · intro K _ _ x hx
    have h17 : (17 : K) = 0 := by exact_mod_cast char_zero (p := 17) K
    obtain ⟨d0, d1, d2⟩ := curve_deriv x
    have e : ∀ i, x i * aeval x (pderiv i (toPoly (2 + 1) (reduceCoeffs 17 curvePoly))) = 0 := fun i => by
      have := hx i
      beta_reduce at this
      rwa [map_mul, aeval_X] at this
    have e0 := e 0
    have e1 := e 1
    have e2 := e 2
    rw [d0] at e0
    rw [d1] at e1
    rw [d2] at e2
    obtain ⟨h0, h1, h2⟩ := curve_nondegenerate h17 e0 e1 e2
    funext i
    fin_cases i
    · exact h0
    · exact h1
    · exact h2
  · intro h
    have := h (ZMod 17) (fun i => if i = 0 then 1 else 0) (fun i => by
      beta_reduce
      rw [map_mul, aeval_X]
      obtain ⟨d0, -, -⟩ := genus3_deriv (K := ZMod 17) (fun i => if i = 0 then 1 else 0)
      by_cases hi : i = 0
      · subst hi
        rw [d0]
        simp
      · rw [if_neg hi, zero_mul])
    simpa using congrFun this 0
  · intro h
    have := h (ZMod 23) (fun i => if i = 1 then 1 else 0) (fun i => by
      beta_reduce
      rw [map_mul, aeval_X]
      obtain ⟨-, d1, -⟩ := k3_deriv (K := ZMod 23) (fun i => if i = 1 then 1 else 0)
      by_cases hi : i = 1
      · subst hi
        rw [d1]
        simp
      · rw [if_neg hi, zero_mul])
    simpa using congrFun this 1
  · intro h
    have := h (ZMod 5) (fun i => if i = 1 then 1 else 0) (fun i => by
      beta_reduce
      rw [map_mul, aeval_X]
      obtain ⟨-, d1, -⟩ := surface_deriv (K := ZMod 5) (fun i => if i = 1 then 1 else 0)
      by_cases hi : i = 1
      · subst hi
        rw [d1]
        simp
      · rw [if_neg hi, zero_mul])
    simpa using congrFun this 1

/-! ### The precisions of examples/example_quartic_curve_modp.input -/

/-- The coefficient below the leading one of a polynomial of degree `b` whose roots have absolute value `p^(dim/2)`. -/
theorem weil_trace {b p dim : ℕ} (hb : 1 ≤ b) (W : Polynomial ℤ) (hmon : W.Monic) (hdeg : W.natDegree = b) (hW : WeilRoots W p dim) :
    (W.coeff (b - 1)) ^ 2 ≤ (b : ℤ) * b * (p : ℤ) ^ dim := by
  obtain ⟨r, hr⟩ := exists_roots W b hmon hdeg
  obtain ⟨S, hS⟩ := exists_powersums W b r hr
  have h1 := newton_int W b r hr S hS 0 hb
  have h2 := weil_bound W b p dim hW r hr (S 1) 1 (hS 1 le_rfl hb)
  rw [mul_one] at h2
  have h3 : W.coeff (b - 1) = - S 1 := by
    simp [ecoef] at h1
    omega
  rw [h3, neg_sq]
  exact h2

/-- **C78 (one digit, wrong).**  The precisions of examples/example_quartic_curve_modp.input, which asks for a matrix modulo `p`, are those of
a matrix modulo `p^3`.  For every prime `p ≥ 11` and every matrix of six rows with entries `0 .. p-1`, what `charpoly_frob` returns is
not the Frobenius polynomial of a curve of genus 3 whose coefficient of `X^5` is positive. -/
theorem C78_modp_wrong {p : ℕ} (hp : 11 ≤ p) (A : Matrix (Fin 6) (Fin 6) ℤ) (hA : ∀ i j, 0 ≤ A i j ∧ A i j < p) (W : Polynomial ℤ)
    (hmon : W.Monic) (hdeg : W.natDegree = 6) (hW : WeilRoots W p 1) (hpos : 0 < W.coeff 5) :
    charpolyFrob (CMat.ofMatrix A) [4, 3, 2, 2, 2, 2, 2] p 1 ≠ .ok ((List.range 7).map W.coeff) := by
  intro h
  have h5 := (C15_congruent (by norm_num) A _ p 1 (by omega) _ h 1 le_rfl (by norm_num)).2 (by decide)
  rw [show ((List.range 7).map W.coeff).getD (6 - 1) 0 = W.coeff 5 from rfl,
    show (([4, 3, 2, 2, 2, 2, 2] : List ℤ).getD (6 - 1) 0).toNat = 2 from rfl] at h5
  have ht : A.charpoly.coeff (6 - 1) = - A.trace := by
    rw [Matrix.trace_eq_neg_charpoly_coeff, neg_neg]
    rfl
  rw [ht] at h5
  have hb := weil_trace (by norm_num) W hmon hdeg hW
  have htr : 0 ≤ A.trace ∧ A.trace ≤ 6 * ((p : ℤ) - 1) := by
    rw [Matrix.trace]
    simp only [Matrix.diag_apply, Fin.sum_univ_six]
    have := hA 0 0
    have := hA 1 1
    have := hA 2 2
    have := hA 3 3
    have := hA 4 4
    have := hA 5 5
    omega
  have hp' : (11 : ℤ) ≤ p := by exact_mod_cast hp
  norm_num at hb
  have hlt : W.coeff 5 + A.trace < (p : ℤ) ^ 2 := by
    by_contra hc
    have h1 : 5 * (p : ℤ) + 6 ≤ W.coeff 5 := by nlinarith
    nlinarith
  have hd : (p : ℤ) ^ 2 ∣ W.coeff 5 + A.trace := by
    have := h5.symm.dvd
    rwa [sub_neg_eq_add] at this
  have := Int.le_of_dvd (by omega) hd
  omega

/-! ### The number of points of the plane quartic -/

/-- The number of zeros of the plane quartic in `{0 .. 16}^3`, modulo 17. -/
def curveZeros : ℕ := ((List.range 17).map (fun x => ((List.range 17).map (fun y => ((List.range 17).map (fun z =>
  if (z ^ 4 + 6 * y * z ^ 3 + 15 * y ^ 2 * z ^ 2 + 7 * y ^ 3 * z + y ^ 4 + 15 * x * y * z ^ 2 + 16 * x * y ^ 2 * z + x * y ^ 3 + 5 * x ^ 2 * z ^ 2 + 16 * x ^ 2 * y ^ 2 + 14 * x ^ 3 * y + 15 * x ^ 4) % 17 = 0 then 1 else 0)).sum)).sum)).sum
set_option maxRecDepth 100000 in
theorem curveZeros_eq : curveZeros = 337 := by decide +kernel

theorem curve_eval (x : Fin 3 → ZMod 17) : eval x (toPoly (2 + 1) (reduceCoeffs 17 curvePoly)) =
  x 2 ^ 4 + 6 * x 1 * x 2 ^ 3 + 15 * x 1 ^ 2 * x 2 ^ 2 + 7 * x 1 ^ 3 * x 2 + x 1 ^ 4 + 15 * x 0 * x 1 * x 2 ^ 2 + 16 * x 0 * x 1 ^ 2 * x 2 + x 0 * x 1 ^ 3 + 5 * x 0 ^ 2 * x 2 ^ 2 + 16 * x 0 ^ 2 * x 1 ^ 2 + 14 * x 0 ^ 3 * x 1 + 15 * x 0 ^ 4 := by
  have h17 : (17 : ZMod 17) = 0 := rfl
  obtain ⟨t0, t1, t2, t3, t4⟩ := toNat_lits
  simp only [curvePoly, reduceCoeffs, List.map_cons, List.map_nil, toPoly_cons, toPoly_nil, map_add, map_zero]
  simp [eval_monomial, Finsupp.prod_fintype, Fin.prod_univ_succ, expo_apply, t0,t1,t2,t3,t4]
  linear_combination (-x 1 ^ 2 * x 2 ^ 2 + 4 * x 1 ^ 3 * x 2-x 0 * x 1 * x 2 ^ 2-x 0 * x 1 ^ 2 * x 2-x 0 ^ 2 * x 1 ^ 2-x 0 ^ 3 * x 1) * h17

def tripleEquiv (α : Type) : (Fin 3 → α) ≃ α × α × α where
  toFun x := (x 0, x 1, x 2)
  invFun t := ![t.1, t.2.1, t.2.2]
  left_inv x := by funext i; fin_cases i <;> rfl
  right_inv t := rfl

theorem curve_count : (Finset.univ.filter (fun x : Fin 3 → ZMod 17 => eval x (toPoly (2 + 1) (reduceCoeffs 17 curvePoly)) = 0)).card = 337 := by
  have hs : ∀ g : ZMod 17 → ℕ, ∑ a, g a = ((List.range 17).map (fun k : ℕ => g (k : ZMod 17))).sum := fun g => by
    exact (Fin.sum_univ_def (n := 17) (fun a : Fin 17 => g a)).trans rfl
  rw [← curveZeros_eq, Finset.card_filter, Fintype.sum_equiv (tripleEquiv (ZMod 17)) _
    (fun t => if t.2.2 ^ 4 + 6 * t.2.1 * t.2.2 ^ 3 + 15 * t.2.1 ^ 2 * t.2.2 ^ 2 + 7 * t.2.1 ^ 3 * t.2.2 + t.2.1 ^ 4 + 15 * t.1 * t.2.1 * t.2.2 ^ 2 + 16 * t.1 * t.2.1 ^ 2 * t.2.2 + t.1 * t.2.1 ^ 3 + 5 * t.1 ^ 2 * t.2.2 ^ 2 + 16 * t.1 ^ 2 * t.2.1 ^ 2 + 14 * t.1 ^ 3 * t.2.1 + 15 * t.1 ^ 4 = 0 then 1 else 0) (fun x => by rw [curve_eval]; rfl),
    Fintype.sum_prod_type]
  simp only [Fintype.sum_prod_type, hs, curveZeros]
  refine congrArg List.sum (List.map_congr_left (fun x _ => congrArg List.sum (List.map_congr_left (fun y _ =>
    congrArg List.sum (List.map_congr_left (fun z _ => if_congr ?_ rfl rfl))))))
  rw [← Nat.dvd_iff_mod_eq_zero, ← ZMod.natCast_eq_zero_iff]
  push_cast
  rfl

theorem curve_trace {W : Polynomial ℤ} (h : CountsPoints 17 6 (toPoly (2 + 1) (reduceCoeffs 17 curvePoly)) W) : W.coeff 5 = 3 := by
  unfold CountsPoints at h
  rw [curve_count] at h
  norm_num at h
  omega

theorem frobRoutine_square {p : ℕ} [Fact p.Prime] {la : LinAlg (ZMod p)} {flint pre : Bool} {order : ℕ → List ℕ} {K : ℕ} {nd : Bool}
    {g : MonMap (ZMod (p ^ K))} {N : List ℤ} {F : ℕ × CMat (ZMod (p ^ K))} (h : frobRoutine p la flint pre order K nd g N = .ok F) :
    ∃ Φ : Matrix (Fin F.1) (Fin F.1) (ZMod (p ^ K)), F.2 = CMat.ofMatrix Φ := by
  unfold frobRoutine at h
  cases nd with
  | true =>
    simp only [if_true] at h
    rw [Res.bind_eq_ok] at h
    obtain ⟨D, -, h⟩ := h
    rw [Res.bind_eq_ok] at h
    obtain ⟨r, hr, h⟩ := h
    obtain rfl := Except.ok.inj h
    unfold frobMatrixND at hr
    rw [Res.bind_eq_ok] at hr
    obtain ⟨_, _, hr⟩ := hr
    rw [Res.bind_eq_ok] at hr
    obtain ⟨_, _, hr⟩ := hr
    rw [Res.bind_eq_ok] at hr
    obtain ⟨_, _, hr⟩ := hr
    cases hr
    exact ⟨_, trimMat_ofMatrix _ rfl rfl⟩
  | false =>
    simp only [Bool.false_eq_true, if_false] at h
    rw [Res.bind_eq_ok] at h
    obtain ⟨D, -, h⟩ := h
    rw [Res.bind_eq_ok] at h
    obtain ⟨r, hr, h⟩ := h
    obtain rfl := Except.ok.inj h
    unfold frobMatrixJ at hr
    rw [Res.bind_eq_ok] at hr
    obtain ⟨_, _, hr⟩ := hr
    rw [Res.bind_eq_ok] at hr
    obtain ⟨_, _, hr⟩ := hr
    rw [Res.bind_eq_ok] at hr
    obtain ⟨_, _, hr⟩ := hr
    cases hr
    exact ⟨_, trimMat_ofMatrix _ rfl rfl⟩

/-- **C78 (one digit, the program, wrong).**  examples/frob.cc with examples/example_quartic_curve_modp.input, for every sequence of random
numbers, number of threads and order of the parallel loop: the polynomial printed, if one is printed, is not the Frobenius polynomial of
the curve, whose coefficient of `X^5` is 3 because the curve has 21 points. -/
theorem C78_modp_program_wrong (la : RankDet (ZMod 17)) (rnd : Rnd (ZMod 17)) (t t' : ℕ) (la' : LinAlg (ZMod 17)) (flint pre : Bool)
    (order : ℕ → List ℕ) (cmp : ℕ → ℕ → Bool) (factor : Polynomial ℤ → List (Polynomial ℤ × ℕ)) (tries : ℤ) (W : Polynomial ℤ)
    (hmon : W.Monic) (hdeg : W.natDegree = 6) (hW : WeilRoots W 17 1)
    (hcount : CountsPoints 17 6 (toPoly (2 + 1) (reduceCoeffs 17 curvePoly)) W) (y : FrobOutput 17 (17 ^ (1 : ℤ).toNat))
    (h : frobProgram 17 la rnd t t' (frobRoutine 17 la' flint pre order) cmp factor tries 1 2 4 curveVec [0, 1] [4, 3, 2, 2, 2, 2, 2] =
      .ok (some y)) :
    y.cp ≠ (List.range 7).map W.coeff := by
  intro hy
  have e := frobProgram_eq (n := 2) (d := 4) la rnd t (frobRoutine 17 la' flint pre order) cmp factor tries t' 1 (by decide)
    planeQuartics_isTable curveVec [0, 1] [4, 3, 2, 2, 2, 2, 2] (by decide)
  have h' := e.symm.trans h
  clear e h
  simp only at h'
  rw [Res.bind_eq_ok] at h'
  obtain ⟨s, -, h'⟩ := h'
  cases s with
  | false => cases h'
  | true =>
    simp only [if_true] at h'
    rw [Res.bind_eq_ok] at h'
    obtain ⟨r, -, h'⟩ := h'
    cases r with
    | none => cases h'
    | some r =>
      obtain ⟨M, k⟩ := r
      simp only at h'
      rw [Res.bind_eq_ok] at h'
      obtain ⟨g, -, h'⟩ := h'
      rw [Res.bind_eq_ok] at h'
      obtain ⟨⟨b, F⟩, hF, h'⟩ := h'
      rw [Res.bind_eq_ok] at h'
      obtain ⟨_, hc, h'⟩ := h'
      rw [Res.bind_eq_ok] at h'
      obtain ⟨fv, -, h'⟩ := h'
      rw [Res.bind_eq_ok] at h'
      obtain ⟨cp, hcp, h'⟩ := h'
      rw [if_neg (by norm_num)] at h'
      cases h'
      have hb : b = 6 := by
        have := check_eq_ok.1 hc
        simpa using this
      subst hb
      obtain ⟨Φ, hΦ⟩ : ∃ Φ : Matrix (Fin 6) (Fin 6) (ZMod (17 ^ 1)), F = CMat.ofMatrix Φ := frobRoutine_square hF
      simp only at hy hcp
      subst hΦ
      have hrep : repMat (CMat.ofMatrix Φ) = CMat.ofMatrix (Φ.map (fun x => (x.val : ℤ))) := by
        simp only [repMat, CMat.ofMatrix, CMat.mk.injEq, true_and]
        funext i j
        split_ifs <;> simp
      rw [hrep, hy] at hcp
      refine C78_modp_wrong (by norm_num) _ (fun i j => ?_) W hmon hdeg hW (by rw [curve_trace hcount]; norm_num) hcp
      rw [Matrix.map_apply]
      have : (Φ i j).val < 17 := lt_of_lt_of_eq (ZMod.val_lt _) (pow_one 17)
      constructor
      · positivity
      · exact_mod_cast this

theorem quadratic_roots {a p : ℤ} (ha : a ^ 2 < 4 * p) {z : ℂ} (hz : z ^ 2 + a * z + p = 0) : ‖z‖ ^ 2 = p := by
  have h1 := congrArg Complex.re hz
  have h2 := congrArg Complex.im hz
  simp [pow_two] at h1 h2
  rw [Complex.sq_norm, Complex.normSq_apply]
  have ha' : (a : ℝ) ^ 2 < 4 * p := by exact_mod_cast ha
  have h3 : z.im * (2 * z.re + a) = 0 := by linarith
  rcases mul_eq_zero.1 h3 with h | h
  · rw [h] at h1
    nlinarith [sq_nonneg (2 * z.re + a)]
  · have : (a : ℝ) = - 2 * z.re := by linarith
    rw [this] at h1
    nlinarith

/-- `(X^2 + 3X + 17)(X^2 + 17)^2`. -/
noncomputable def exWeil : Polynomial ℤ := (Polynomial.X ^ 2 + 3 * Polynomial.X + 17) * (Polynomial.X ^ 2 + 17) ^ 2

theorem exWeil_eq : exWeil = Polynomial.X ^ 6 + Polynomial.C 3 * Polynomial.X ^ 5 + Polynomial.C 51 * Polynomial.X ^ 4 +
    Polynomial.C 102 * Polynomial.X ^ 3 + Polynomial.C 867 * Polynomial.X ^ 2 + Polynomial.C 867 * Polynomial.X + Polynomial.C 4913 := by
  rw [exWeil]
  simp only [Polynomial.C_ofNat]
  ring

/-- A polynomial with the properties used, and a matrix for which `charpoly_frob` returns a result. -/
example : exWeil.Monic ∧ exWeil.natDegree = 6 ∧ WeilRoots exWeil 17 1 ∧
    CountsPoints 17 6 (toPoly (2 + 1) (reduceCoeffs 17 curvePoly)) exWeil ∧
    charpolyFrob (CMat.ofMatrix (1 : Matrix (Fin 6) (Fin 6) ℤ)) [4, 3, 2, 2, 2, 2, 2] 17 1 =
      .ok [4913, -1734, 255, -20, 15, -6, 1] := by
  have hd : exWeil.natDegree = 6 := by
    rw [exWeil_eq]
    compute_degree!
  have hc : ∀ k, exWeil.coeff k = (Polynomial.X ^ 6 + Polynomial.C 3 * Polynomial.X ^ 5 + Polynomial.C 51 * Polynomial.X ^ 4 +
    Polynomial.C 102 * Polynomial.X ^ 3 + Polynomial.C 867 * Polynomial.X ^ 2 + Polynomial.C 867 * Polynomial.X +
    Polynomial.C 4913 : Polynomial ℤ).coeff k := fun k => by rw [exWeil_eq]
  refine ⟨?_, hd, ?_, ?_, by decide +kernel⟩
  · rw [Polynomial.Monic, Polynomial.leadingCoeff, hd, hc]
    simp [Polynomial.coeff_X, Polynomial.coeff_C]
  · intro z hz
    have h : (z ^ 2 + (3 : ℤ) * z + (17 : ℤ)) * (z ^ 2 + (0 : ℤ) * z + (17 : ℤ)) ^ 2 = 0 := by
      have e3 : Polynomial.aeval z (3 : Polynomial ℤ) = 3 := map_ofNat _ 3
      have e17 : Polynomial.aeval z (17 : Polynomial ℤ) = 17 := map_ofNat _ 17
      rw [exWeil, map_mul, map_pow, map_add, map_add, map_add, map_mul, map_pow, Polynomial.aeval_X, e3, e17] at hz
      push_cast
      linear_combination hz
    rw [pow_one]
    rcases mul_eq_zero.1 h with h | h
    · exact_mod_cast quadratic_roots (by norm_num) h
    · exact_mod_cast quadratic_roots (by norm_num) (pow_eq_zero_iff (two_ne_zero) |>.1 h)
  · rw [CountsPoints, curve_count, hc]
    simp [Polynomial.coeff_X, Polynomial.coeff_C]

/-! ### The other programs -/

/-- **C78 (the curve).**  examples/frob.cc with examples/example_quartic_curve.input: the precisions are those of `default_args`, the
polynomial is non-degenerate, no random number is used, and the run ends as in `FrobOutcome`. -/
theorem C78_curve_partial (la : RankDet (ZMod 17)) (hla : RankDetOK la) (rnd : Rnd (ZMod 17)) (t : ℕ)
    {la' : LinAlg (ZMod 17)} (hla' : LinAlgOK la') (flint pre : Bool) {order : ℕ → List ℕ}
    (ho : ∀ b, (order b).Perm (List.range b)) {cmp : ℕ → ℕ → Bool} (hcmp : CmpOK cmp)
    {factor : Polynomial ℤ → List (Polynomial ℤ × ℕ)} (hfac : FactorOK factor) (tries : ℤ) :
    ∃ nd, FrobOutcome 17 2 4 la' flint planeQuartics (toPoly (2 + 1) (reduceCoeffs 17 curvePoly)) 3 [2, 2] [4, 3, 2, 2, 2, 2, 2] nd
      (fun t' => frobProgram 17 la rnd t t' (frobRoutine 17 la' flint pre order) cmp factor tries 3 2 4 curveVec [2, 2]
        [4, 3, 2, 2, 2, 2, 2]) := by
  rcases C68_digits_partial (n := 2) (d := 4) (by norm_num) la hla rnd t hla' flint pre ho hcmp hfac tries
    (a := ⟨3, [2, 2], [4, 3, 2, 2, 2, 2, 2]⟩) rfl planeQuartics_isTable curveVec (by decide) _ rfl
    (by rw [C78_read.2.2.2.1]; exact C78_smooth.1) with ⟨-, h⟩ | h
  · rw [C78_read.2.2.2.1] at h
    exact absurd C78_degenerate.1 h
  · rw [C78_read.2.2.2.1] at h
    exact h

/-- **C78 (the surface).**  examples/frob.cc with examples/example_quartic_surface.input: the precisions are those of `default_args`; the
search for a change of variables is still running or the run ends as in `FrobOutcome`. -/
theorem C78_surface_partial (la : RankDet (ZMod 5)) (hla : RankDetOK la) (rnd : Rnd (ZMod 5)) (t : ℕ)
    {la' : LinAlg (ZMod 5)} (hla' : LinAlgOK la') (flint pre : Bool) {order : ℕ → List ℕ}
    (ho : ∀ b, (order b).Perm (List.range b)) {cmp : ℕ → ℕ → Bool} (hcmp : CmpOK cmp)
    {factor : Polynomial ℤ → List (Polynomial ℤ × ℕ)} (hfac : FactorOK factor) (tries : ℤ) :
    ∀ run, run = (fun t' => frobProgram 5 la rnd t t' (frobRoutine 5 la' flint pre order) cmp factor tries 9 3 4 surfaceVec [4, 5, 5]
        [23, 22, 21, 20, 19, 18, 17, 16, 15, 14, 13, 12, 11, 10, 9, 8, 7, 6, 5, 4, 4, 4]) →
      (∀ t', run t' = .ok none) ∨ ∃ nd, FrobOutcome 5 3 4 la' flint quartics (toPoly (3 + 1) (reduceCoeffs 5 surfacePoly)) 9 [4, 5, 5]
        [23, 22, 21, 20, 19, 18, 17, 16, 15, 14, 13, 12, 11, 10, 9, 8, 7, 6, 5, 4, 4, 4] nd run := by
  rintro _ rfl
  rcases C68_digits_partial (n := 3) (d := 4) (by norm_num) la hla rnd t hla' flint pre ho hcmp hfac tries
    (a := ⟨9, [4, 5, 5], [23, 22, 21, 20, 19, 18, 17, 16, 15, 14, 13, 12, 11, 10, 9, 8, 7, 6, 5, 4, 4, 4]⟩) rfl quartics_isTable
    surfaceVec (by decide) _ rfl (by rw [C78_read.2.2.2.2.1]; exact C78_smooth.2.2.2) with ⟨h, -⟩ | h
  · exact Or.inl h
  · rw [C78_read.2.2.2.2.1] at h
    exact Or.inr h

/-- **C78 (the two programs that call `zeta_function`).**  examples/zeta_function_wrapper_genus3.cc and
examples/zeta_function_wrapper_K3.cc do not abort: the search for a change of variables is still running or the run ends as in `ZetaOutcome`,
with 3 and 5 digits. -/
theorem C78_wrapper_partial (la : (p : ℕ) → RankDet (ZMod p)) (hla : ∀ p [Fact p.Prime], RankDetOK (la p)) (rnd : (p : ℕ) → Rnd (ZMod p))
    (t : ℕ) (la' : (p : ℕ) → LinAlg (ZMod p)) (hla' : ∀ p [Fact p.Prime], LinAlgOK (la' p)) (flint pre : Bool) {order : ℕ → List ℕ}
    (ho : ∀ b, (order b).Perm (List.range b)) :
    (∀ run, run = wrapperProgram la rnd t (fun p _ => frobRoutine p (la' p) flint pre order) genus3Example →
      run = .ok none ∨ ZetaOutcome 17 2 4 (la' 17) flint genus3Poly 0 true true run) ∧
    (∀ run, run = wrapperProgram la rnd t (fun p _ => frobRoutine p (la' p) flint pre order) k3Example →
      run = .ok none ∨ ZetaOutcome 23 3 4 (la' 23) flint k3Poly 0 true true run) := by
  obtain ⟨-, -, -, -, -, hread⟩ := C78_read
  refine ⟨?_, ?_⟩ <;> rintro run hrun
  · rw [wrapperProgram, (hread _).1, zetaOf, dif_pos (show Nat.Prime (Int.toNat 17) from fact17.out)] at hrun
    rcases C65_digits_partial (p := 17) (n := 2) (d := 4) (by norm_num) (la 17) (hla 17) (rnd 17) t (hla' 17) flint pre ho genus3Poly
      (by unfold WFPoly NonNeg LexLt; decide) (by decide) (by decide) 0
      (termsFit_three (by norm_num) (by norm_num)) true true run hrun.symm with ⟨-, h | h | h⟩ | ⟨h, -⟩ | h
    · exact absurd (by decide) h
    · cases h
    · exact absurd C78_smooth.2.1 h
    · exact Or.inl h
    · exact Or.inr h
  · rw [wrapperProgram, (hread _).2, zetaOf, dif_pos (show Nat.Prime (Int.toNat 23) from fact23.out)] at hrun
    rcases C65_digits_partial (p := 23) (n := 3) (d := 4) (by norm_num) (la 23) (hla 23) (rnd 23) t (hla' 23) flint pre ho k3Poly
      (by unfold WFPoly NonNeg LexLt; decide) (by decide) (by decide) 0
      (termsFit_three (by norm_num) (by norm_num)) true true run hrun.symm with ⟨-, h | h | h⟩ | ⟨h, -⟩ | h
    · exact absurd (by decide) h
    · cases h
    · exact absurd C78_smooth.2.2.1 h
    · exact Or.inl h
    · exact Or.inr h

end Verif
