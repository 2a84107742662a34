import Verif.Props.Construct
import Verif.Props.Unique
import Verif.Props.Zeta

/-! The two points `x^2 + y^2 = 0` in characteristic 3: an object for which a digit is lost in the division. -/

namespace Verif

open Spec MvPolynomial

section

variable (R : Type) [CommRing R]

/-- `x^2 + y^2`. -/
def twoPoints : MonMap R := [([0, 2], 1), ([2, 0], 1)]

theorem twoPoints_wf : WFPoly (1 + 1) (twoPoints R) ∧ twoPoints R ≠ [] ∧ ∀ e ∈ twoPoints R, deg e.1 = (2 : ℕ) := by
  refine ⟨⟨?_, ?_⟩, by simp [twoPoints], ?_⟩
  · intro e he
    simp only [twoPoints, List.mem_cons, List.not_mem_nil, or_false] at he
    rcases he with rfl | rfl <;> exact ⟨rfl, by unfold NonNeg; dsimp only; decide⟩
  · simp only [twoPoints, List.map_cons, List.map_nil]; unfold LexLt; decide
  · intro e he
    simp only [twoPoints, List.mem_cons, List.not_mem_nil, or_false] at he
    rcases he with rfl | rfl <;> rfl

theorem twoPoints_poly : toPoly (1 + 1) (twoPoints R) = X 1 ^ 2 + X 0 ^ 2 := by
  rw [twoPoints, toPoly_cons, toPoly_cons, toPoly_nil, add_zero, X_pow_eq_monomial, X_pow_eq_monomial]
  congr 1
  · refine congrArg (fun a => monomial a (1 : R)) ?_
    ext i; fin_cases i <;> simp [expo_apply]
  · refine congrArg (fun a => monomial a (1 : R)) ?_
    ext i; fin_cases i <;> simp [expo_apply]

theorem twoPoints_pderiv (i : Fin (1 + 1)) : pderiv i (toPoly (1 + 1) (twoPoints R)) = 2 * X i := by
  rw [twoPoints_poly]
  simp only [map_add, pderiv_pow]
  fin_cases i <;> simp [pderiv_X]

variable {R}

/-- The relations, in `x`. -/
theorem twoPoints_relX (a b m : ℕ) (h : a + 1 + b + 1 = m * 2) :
    (2 * X 0 ^ (a + 2) * X 1 ^ b - ((a + 1 : ℕ) : MvPolynomial (Fin 2) R) * X 0 ^ a * X 1 ^ b) ∈
      scaledExact (toPoly (1 + 1) (twoPoints R)) 2 := by
  refine Submodule.subset_span ⟨m, a + 1 + b, 0, X 0 ^ (a + 1) * X 1 ^ b, by omega, by omega, ?_, ?_⟩
  · exact ((isHomogeneous_X_pow _ _).mul (isHomogeneous_X_pow _ _))
  · rw [twoPoints_pderiv, pderiv_mul, pderiv_pow, pderiv_pow, pderiv_X_self, pderiv_X_of_ne (by decide)]
    push_cast
    simp only [Nat.add_sub_cancel, mul_zero, add_zero, mul_one]
    ring

theorem twoPoints_relY (b m : ℕ) (h : b + 1 + 1 = m * 2) :
    (2 * X 1 ^ (b + 2) - ((b + 1 : ℕ) : MvPolynomial (Fin 2) R) * X 1 ^ b) ∈ scaledExact (toPoly (1 + 1) (twoPoints R)) 2 := by
  refine Submodule.subset_span ⟨m, b + 1, 1, X 1 ^ (b + 1), by omega, by omega, isHomogeneous_X_pow _ _, ?_⟩
  rw [twoPoints_pderiv, pderiv_pow, pderiv_X_self]
  push_cast
  simp only [Nat.add_sub_cancel, mul_one]
  ring

theorem twoPoints_series (b : Fin (1 + 1) → ℤ) (hb : b = 0) :
    scaledSeries (toPoly (1 + 1) (twoPoints R)) 3 1 2 b =
      120 * (X 0 ^ 2 * X 1 ^ 2) - (X 0 ^ 8 * X 1 ^ 2 + X 0 ^ 2 * X 1 ^ 8) := by
  subst hb
  have d0 : djm 1 2 0 = 2 := by decide
  have d1 : djm 1 2 1 = -1 := by decide
  have hx : xpow R (fun i : Fin (1 + 1) => ((3 : ℕ) : ℤ) * ((0 : Fin (1 + 1) → ℤ) i + 1) - 1) = X 0 ^ 2 * X 1 ^ 2 := by
    rw [xpow_of_nonneg (fun i => by simp), X_pow_eq_monomial, X_pow_eq_monomial, monomial_mul, mul_one]
    refine congrArg (fun a => monomial a (1 : R)) ?_
    ext i; fin_cases i <;> simp
  rw [scaledSeries, Finset.sum_range_succ, Finset.sum_range_one, d0, d1, hx, twoPoints_poly]
  have e0 : (frobFact 3 1 2 / (3 * (1 + 0) - 1).factorial : ℕ) = 60 := by decide
  have e1 : (frobFact 3 1 2 / (3 * (1 + 1) - 1).factorial : ℕ) = 1 := by decide
  rw [e0, e1, pow_zero, pow_one, map_one, map_add, map_pow, map_pow, expand_X, expand_X, smul_eq_C_mul, smul_eq_C_mul]
  push_cast
  simp only [map_mul, map_neg, map_one, map_ofNat]
  ring

/-- `32` times the series is cohomologous to `750`. -/
theorem twoPoints_coord (b : Fin (1 + 1) → ℤ) (hb : b = 0) :
    32 * scaledSeries (toPoly (1 + 1) (twoPoints R)) 3 1 2 b - 750 ∈ scaledExact (toPoly (1 + 1) (twoPoints R)) 2 := by
  have hS : ∀ (k : ℕ) {w : MvPolynomial (Fin (1 + 1)) R}, w ∈ scaledExact (toPoly (1 + 1) (twoPoints R)) 2 →
      (k : MvPolynomial (Fin (1 + 1)) R) * w ∈ scaledExact (toPoly (1 + 1) (twoPoints R)) 2 := by
    intro k w hw
    rw [← nsmul_eq_mul]
    exact nsmul_mem hw k
  have x8 := twoPoints_relX (R := R) 6 2 5 (by norm_num)
  have x6 := twoPoints_relX (R := R) 4 2 4 (by norm_num)
  have x4 := twoPoints_relX (R := R) 2 2 3 (by norm_num)
  have x2 := twoPoints_relX (R := R) 0 2 2 (by norm_num)
  have y2 := twoPoints_relY (R := R) 0 1 (by norm_num)
  have z2 := twoPoints_relX (R := R) 0 8 5 (by norm_num)
  have y8 := twoPoints_relY (R := R) 6 4 (by norm_num)
  have y6 := twoPoints_relY (R := R) 4 3 (by norm_num)
  have y4 := twoPoints_relY (R := R) 2 2 (by norm_num)
  have h := Submodule.sub_mem _ (Submodule.add_mem _ (hS 1920 x2) (hS 960 y2))
    (Submodule.add_mem _ (Submodule.add_mem _ (Submodule.add_mem _ (Submodule.add_mem _ (Submodule.add_mem _
      (hS 16 x8) (hS 56 x6)) (hS 140 x4)) (hS 210 x2)) (hS 105 y2))
      (Submodule.add_mem _ (Submodule.add_mem _ (Submodule.add_mem _ (Submodule.add_mem _ (hS 16 z2) (hS 8 y8))
        (hS 28 y6)) (hS 70 y4)) (hS 105 y2)))
  rw [twoPoints_series b hb]
  convert h using 1
  push_cast
  ring

end

section

variable {K : ℕ} [hprime : Fact (Nat.Prime 3)]

theorem twoPoints_noZero : NoCommonZero.{0} (fun i => X i * pderiv i (toPoly (1 + 1) (twoPoints (ZMod 3)))) := by
  intro F _ _ x hx
  funext i
  have h1 := hx i
  beta_reduce at h1
  rw [twoPoints_pderiv, map_mul, aeval_X, map_mul, aeval_X, map_ofNat] at h1
  have h2 : (2 : F) ≠ 0 := by
    haveI : CharP F 3 := (Algebra.charP_iff (ZMod 3) F 3).1 inferInstance
    intro h0
    have : ((2 : ℕ) : F) = 0 := by exact_mod_cast h0
    rw [CharP.cast_eq_zero_iff F 3] at this
    revert this; decide
  simpa [h2] using h1

theorem twoPoints_rep : repMap (3 ^ K) (twoPoints (ZMod 3)) = twoPoints (ZMod (3 ^ K)) := by
  haveI : Fact (1 < 3) := ⟨by norm_num⟩
  simp only [repMap, twoPoints, List.map_cons, List.map_nil, ZMod.val_one, Nat.cast_one]

theorem twoPoints_constructed (hK : 1 ≤ K) {la : LinAlg (ZMod 3)} (hla : LinAlgOK la) (flint : Bool) :
    (∃ D, Constructed (padicSolver 3 K la flint K) 3 (twoPoints (ZMod (3 ^ K))) 1 2 D) ∧
    ∃ D, ConstructedND (padicSolver 3 K la flint K) 3 (twoPoints (ZMod (3 ^ K))) 1 2 D := by
  have hdvd : 3 ∣ 3 ^ K := dvd_pow_self 3 (by omega)
  obtain ⟨h1, h2, h3⟩ := twoPoints_wf (ZMod (3 ^ K))
  have hsize : ∀ l ≤ (1 + 1) * 2, (l + 1).choose 1 < 2 ^ 63 := choose_small (by decide)
  have h5 : NondegMod hdvd (toPoly (1 + 1) (twoPoints (ZMod (3 ^ K)))) := by
    rw [← twoPoints_rep, nondeg_repMap]
    exact twoPoints_noZero
  obtain ⟨D, hD⟩ := (C59_smooth hK hdvd hla flint le_rfl h1 h2 h3 hsize le_rfl).1.2
    ⟨by norm_num, by norm_num, smooth_of_nondeg h5⟩
  obtain ⟨D', hD'⟩ := (C59_nondegenerate hK hdvd hla flint le_rfl h1 h2 h3 hsize le_rfl).1.2 ⟨by norm_num, by norm_num, h5⟩
  exact ⟨⟨D, padicSolver_ok hla flint le_rfl, h1, h3, hsize, hD⟩, ⟨D', padicSolver_ok hla flint le_rfl, h1, h3, hsize, hD'⟩⟩

/-- The basis is `[1]`. -/
theorem twoPoints_basis {solve : Solver (ZMod (3 ^ K))} {q : ℕ} {D : DR (ZMod (3 ^ K))}
    (hC : Constructed solve q (twoPoints (ZMod (3 ^ K))) 1 2 D) : D.basis = [[0, 0]] := by
  have h1 := C45_rank hC
  norm_num at h1
  have h2 : D.basis.length = 1 := by omega
  obtain ⟨b, hb⟩ := List.length_eq_one_iff.1 h2
  obtain ⟨e1, e2, hI⟩ := hC.init
  have h3 := basis_pole hI.basis (by omega) (coord := 0) (ei := b) (by rw [hb]; rfl)
  rw [e1, e2] at h3
  obtain ⟨p1, p2, p3⟩ := h3
  obtain ⟨t1, t2, t3⟩ := p3
  have hp : poleOrder 1 2 b = 1 := by omega
  rw [hp] at t3
  rw [hb]
  match b, t1, t2, t3 with
  | [x, y], _, t2, t3 =>
    have hx := t2 x (by simp)
    have hy := t2 y (by simp)
    simp [deg] at t3
    obtain rfl : x = 0 := by omega
    obtain rfl : y = 0 := by omega
    rfl

/-- The column is `25/128`, up to the digit that is lost. -/
theorem twoPoints_column {D : DR (ZMod (3 ^ K))} (hb : D.basis = [[0, 0]]) {x : ZMod (3 ^ K)} (hx : 128 * x = 25) :
    FrobColumn (toPoly (1 + 1) (twoPoints (ZMod (3 ^ K)))) 2 3 D.basis 1 2 (ev 1 [0, 0]) (fun _ => x) := by
  have hv : padicValNat 3 (frobFact 3 1 2) = 1 := by
    have : frobFact 3 1 2 = 3 ^ 1 * 40 := by decide
    rw [this, padicValNat.mul (by norm_num) (by norm_num), padicValNat.prime_pow,
      padicValNat.eq_zero_of_not_dvd (by norm_num)]
  have hev : ev 1 [0, 0] = 0 := by funext i; fin_cases i <;> rfl
  refine ⟨fun _ => 120 * x, ?_, fun k hk => ?_⟩
  · have h32 : ∃ w : ZMod (3 ^ K), 32 * w = 1 := by
      have := ZMod.coe_mul_inv_eq_one (n := 3 ^ K) 32 (Nat.Coprime.pow_right _ (by norm_num))
      exact ⟨_, by simpa using this⟩
    obtain ⟨w, hw⟩ := h32
    have h1 := Submodule.smul_mem _ w (twoPoints_coord (R := ZMod (3 ^ K)) _ hev)
    have h2 : (120 * x : ZMod (3 ^ K)) = w * 750 := by
      calc (120 * x : ZMod (3 ^ K)) = (32 * w) * (120 * x) := by rw [hw, one_mul]
        _ = w * (30 * (128 * x)) := by ring
        _ = w * 750 := by rw [hx]; ring
    rw [SeriesCoords, hb, combo, List.length_singleton, Finset.sum_range_one]
    convert h1 using 1
    have h3 : xpow (ZMod (3 ^ K)) (ev 1 ([[0, 0]].getD 0 [])) = 1 := by
      rw [show ([[0, 0]] : List IVec).getD 0 [] = [0, 0] from rfl, hev, xpow_of_nonneg (a := (0 : Fin (1 + 1) → ℤ)) (fun i => le_refl _)]
      refine (congrArg (fun a => monomial a (1 : ZMod (3 ^ K))) ?_).trans (by rw [monomial_zero', map_one])
      ext i; simp
    rw [h3, h2, smul_eq_C_mul, smul_eq_C_mul, mul_one, mul_sub, map_mul, ← mul_assoc]
    have h4 : (C w * 32 : MvPolynomial (Fin (1 + 1)) (ZMod (3 ^ K))) = 1 := by
      rw [← map_ofNat C 32, ← map_mul, mul_comm, hw, map_one]
    rw [h4, one_mul, map_ofNat]
  · rw [hb, List.length_singleton] at hk
    obtain rfl : k = 0 := by omega
    rw [hv, hb, show ([[0, 0]] : List IVec).getD 0 [] = [0, 0] from rfl, show poleOrder 1 2 [0, 0] = 1 by decide,
      show frobFact 3 1 2 = 120 by decide]
    norm_num

end

end Verif
