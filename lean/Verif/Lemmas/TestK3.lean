import Verif.Lemmas.Horner
import Verif.Props.Programs
import Verif.Props.Digits

/-!
The quartic of `test_K3p3` is smooth: in degree 9 every power `x_i^9` is a combination of the partial derivatives.
-/

namespace Verif

open Spec MvPolynomial

/-- The coefficients of the quartic, in the order of the monomials. -/
def k3Vec : List (ZMod 3) :=
  [1, 2, 1, 1, 1, 1, 0, 0, 0, 0, 1, 0, 2, 1, 1, 2, 0, 2, 0, 1, 1, 2, 1, 0, 1, 1, 0, 0, 2, 1, 1, 1, 2, 1, 1]

/-- The quartic. -/
noncomputable def k3Poly : MvPolynomial (Fin (3 + 1)) (ZMod 3) :=
  X 3 ^ 4 + 2 * X 2 * X 3 ^ 3 + X 2 ^ 2 * X 3 ^ 2 + X 2 ^ 3 * X 3 + X 2 ^ 4 + X 1 * X 3 ^ 3 + X 1 ^ 2 * X 2 * X 3 +
  2 * X 1 ^ 3 * X 3 + X 1 ^ 3 * X 2 + X 1 ^ 4 + 2 * X 0 * X 3 ^ 3 + 2 * X 0 * X 2 ^ 2 * X 3 + X 0 * X 1 * X 3 ^ 2 +
  X 0 * X 1 * X 2 * X 3 + 2 * X 0 * X 1 * X 2 ^ 2 + X 0 * X 1 ^ 2 * X 3 + X 0 * X 1 ^ 3 + X 0 ^ 2 * X 3 ^ 2 +
  2 * X 0 ^ 2 * X 1 * X 3 + X 0 ^ 2 * X 1 * X 2 + X 0 ^ 2 * X 1 ^ 2 + X 0 ^ 3 * X 3 + 2 * X 0 ^ 3 * X 2 + X 0 ^ 3 * X 1 +
  X 0 ^ 4

/-- The partial derivatives of the quartic, with coefficients not reduced. -/
def k3Partials : List H4 :=
  [[[[[0, 0, 0, 2], [], [0, 2]], [[0, 0, 1], [0, 1], [2]], [[0, 1]], [[1]]], [[[0, 0, 2]], [[0, 4], [2]], [[2]]], [[[0,
  3], [6]], [[3]]], [[[4]]]], [[[[0, 0, 0, 1]], [[], [0, 2]], [[0, 6], [3]], [[4]]], [[[0, 0, 1], [0, 1], [2]], [[0,
  2]], [[3]]], [[[0, 2], [1]], [[2]]], [[[1]]]], [[[[0, 0, 0, 2], [0, 0, 2], [0, 3], [4]], [], [[0, 1]], [[1]]], [[[],
  [0, 4]], [[0, 1], [4]]], [[], [[1]]], [[[2]]]], [[[[0, 0, 0, 4], [0, 0, 6], [0, 2], [1]], [[0, 0, 3]], [[], [1]],
  [[2]]], [[[0, 0, 6], [], [2]], [[0, 2], [1]], [[1]]], [[[0, 2]], [[2]]], [[[1]]]]]

/-- Row `i`: `g_0, .., g_3` with `g_0 f_0 + .. + g_3 f_3 = x_i^9`. -/
def k3Cert : List (List H4) :=
  [[[[[[0, 0, 0, 0, 0, 0, 1], [0, 0, 0, 0, 0, 2], [0, 0, 0, 0, 1], [0, 0, 0, 2], [], [], [1]], [[], [0, 0, 0, 0, 1], [0,
  0, 0, 1], [0, 0, 2], [0, 1]], [[], [0, 0, 0, 2], [0, 0, 2]], [[], [0, 0, 1], [], [2]], [[0, 0, 2], [0, 2], [1]], [[0,
  2], [2]], [[2]]], [[[0, 0, 0, 0, 0, 2], [], [0, 0, 0, 2], [0, 0, 2]], [[], [0, 0, 0, 1], [0, 0, 1]], [[], [0, 0, 2],
  [], [1]], [[0, 0, 2], [0, 2], [1]], [], [[2]]], [[[0, 0, 0, 0, 1], [], [], [0, 2]], [[0, 0, 0, 1], [], [0, 1], [2]],
  [[0, 0, 1], [0, 1]], [[0, 2], [2]]], [[[0, 0, 0, 1], [], [0, 1]], [[0, 0, 2], [0, 2], [1]], [[0, 2]], [[2]]], [[[0, 0,
  1]], [[0, 2], [1]], [[1]]], [], [[[1]]]], [[[[], [], [], [], [0, 0, 2], [0, 1], [1]], [[0, 0, 0, 0, 0, 2], [], [0, 0,
  0, 1], [0, 0, 2], [0, 2], [1]], [[], [0, 0, 0, 1], [0, 0, 1], [0, 2], [1]], [[0, 0, 0, 1], [0, 0, 2], [], [2]], [[0,
  0, 1], [0, 2]], [[0, 2], [2]]], [[[], [], [], [0, 0, 2], [0, 2], [1]], [[0, 0, 0, 0, 1], [], [], [], [1]], [[], [0, 0,
  2], [0, 1], [1]], [[], [0, 1], [2]], [[0, 2]]], [[[], [], [], [0, 1]], [[], [0, 0, 2], [0, 2], [1]], [[0, 0, 2], [],
  [1]], [[0, 2]], [[1]]]], [[[[0, 0, 0, 0, 0, 0, 2], [0, 0, 0, 0, 0, 2], [0, 0, 0, 0, 2], [0, 0, 0, 1], [0, 0, 1], [0,
  1]], [[], [], [0, 0, 0, 1], [0, 0, 2], [0, 2], [1]], [[], [0, 0, 0, 1], [0, 0, 1], [0, 2], [1]], [[], [0, 0, 1], [0,
  2], [2]], [[], [0, 2], [1]], [[0, 1], [2]], [[1]]], [[[], [], [], [], [], [1]], [[0, 0, 0, 0, 2], [0, 0, 0, 2], [0, 0,
  1], [0, 1], [2]], [[0, 0, 0, 2], [0, 0, 1]], [], [[0, 2]]]], [[[[], [], [], [0, 0, 0, 2], [0, 0, 2]], [[], [0, 0, 0,
  0, 1], [0, 0, 0, 2], [0, 0, 1], [0, 1]], [[], [0, 0, 0, 2], [0, 0, 1], [0, 1], [2]], [[0, 0, 0, 2], [0, 0, 2], [0, 2],
  [2]], [[0, 0, 2], [0, 2]], [[0, 2]]]]], [[[[[0, 0, 0, 0, 0, 0, 2], [0, 0, 0, 0, 0, 1], [0, 0, 0, 0, 1], [0, 0, 0, 2],
  [0, 0, 2], [], [1]], [[], [], [0, 0, 0, 1], [], [0, 2], [2]], [[0, 0, 0, 0, 2], [], [0, 0, 1]], [[0, 0, 0, 2], [], [0,
  1]], [], [[0, 2], [1]]], [[[0, 0, 0, 0, 0, 1], [0, 0, 0, 0, 1], [0, 0, 0, 2], [], [], [2]], [[], [], [0, 0, 1], [0,
  2], [1]], [[0, 0, 0, 2], [0, 0, 1]], [[], [], [1]], [[0, 1]]], [[[], [0, 0, 0, 2], [0, 0, 2], [0, 2]], [[0, 0, 0, 1],
  [], [0, 2]], [[0, 0, 2], [0, 2]], [[0, 2], [1]]]], [[[[0, 0, 0, 0, 0, 0, 1], [0, 0, 0, 0, 0, 2], [0, 0, 0, 0, 1], [0,
  0, 0, 2], [], [0, 1], [2]], [[], [0, 0, 0, 0, 1], [], [], [], [2]], [[0, 0, 0, 0, 1], [0, 0, 0, 2], [0, 0, 1], [0, 1],
  [2]], [[0, 0, 0, 1], [0, 0, 1], [0, 1]], [[0, 0, 1], [0, 1], [2]], [[0, 1], [2]], [[2]]], [[[0, 0, 0, 0, 0, 1], [],
  [], [], [], [2]], [[], [0, 0, 0, 1], [0, 0, 1], [0, 1], [1]], [[], [0, 0, 2]], [[0, 0, 1], [0, 2]], [[0, 2], [1]]],
  [[[], [0, 0, 0, 1], [0, 0, 1], [0, 1]], [[0, 0, 0, 2], [], [0, 1]], [[0, 0, 1], [0, 1]], [[0, 1], [2]]]], [[[[0, 0, 0,
  0, 0, 0, 1], [], [0, 0, 0, 0, 2], [0, 0, 0, 1], [0, 0, 2], [0, 2], [1]], [[], [], [0, 0, 0, 2], [0, 0, 1], [], [1]],
  [[0, 0, 0, 0, 1], [], [0, 0, 2]], [[0, 0, 0, 1], [], [0, 2], [1]], [[0, 0, 1], [0, 1]], [[0, 1], [2]], [[2]]], [[[0,
  0, 0, 0, 0, 2], [], [0, 0, 0, 2], [], [0, 1], [1]], [[0, 0, 0, 0, 1], [0, 0, 0, 2], [], [], [2]], [[0, 0, 0, 2]], [[0,
  0, 2]], [[0, 2], [2]]]], [[[[0, 0, 0, 0, 0, 0, 2], [], [], [0, 0, 0, 1], [], [0, 1], [2]], [[0, 0, 0, 0, 0, 1], [],
  [], [0, 0, 1]], [[0, 0, 0, 0, 2], [0, 0, 0, 2], [], [0, 2]], [[0, 0, 0, 1], [0, 0, 1], [0, 1]], [[0, 0, 2], [], [1]],
  [[], [2]]]]], [[[[[], [], [], [], [0, 0, 2], [], [2]], [[0, 0, 0, 0, 0, 1], [0, 0, 0, 0, 1], [], [0, 0, 2], [], [1]],
  [[], [0, 0, 0, 1], [0, 0, 2], [0, 1], [2]], [[0, 0, 0, 2], [0, 0, 2], [], [2]], [[0, 0, 1], [0, 2], [2]], [[0, 1],
  [1]]], [[[0, 0, 0, 0, 0, 1], [], [0, 0, 0, 2], [], [], [1]], [[], [], [0, 0, 1], [0, 2], [1]], [[0, 0, 0, 2], [0, 0,
  2], [0, 1], [1]], [[], [0, 2]], [], [[1]]], [[[0, 0, 0, 0, 1], [0, 0, 0, 2], [0, 0, 1], [0, 1]], [[], [], [0, 1],
  [1]], [[0, 0, 2], [0, 2]], [[], [2]]]], [[[[], [], [0, 0, 0, 0, 1], [0, 0, 0, 2], [0, 0, 2]], [[0, 0, 0, 0, 0, 1], [0,
  0, 0, 0, 2], [0, 0, 0, 1], [0, 0, 2]], [[0, 0, 0, 0, 1], [], [0, 0, 1]], [[0, 0, 0, 1], [0, 0, 2], [0, 1], [2]], [[],
  [0, 1], [1]], [[0, 2], [1]], [[1]]], [[[0, 0, 0, 0, 0, 1], [], [], [0, 0, 1]], [[], [], [0, 0, 1], [0, 1], [2]], [[],
  [], [], [1]], [[0, 0, 2], [0, 1], [2]], [[0, 2], [2]], [[2]]], [[[0, 0, 0, 0, 2], [0, 0, 0, 1], [0, 0, 2], [0, 2]],
  [[], [], [0, 2], [2]], [[0, 0, 1], [0, 1]], [[], [1]]]], [[[[0, 0, 0, 0, 0, 0, 1], [0, 0, 0, 0, 0, 2], [0, 0, 0, 0,
  1], [], [], [0, 2]], [[], [0, 0, 0, 0, 1], [0, 0, 0, 2], [0, 0, 1], [0, 1], [2]], [[0, 0, 0, 0, 2], [0, 0, 0, 1], [],
  [0, 1], [1]], [[0, 0, 0, 2], [], [0, 1], [2]], [[0, 0, 2], [], [2]], [[0, 2]], [[2]]], [[[], [0, 0, 0, 0, 1], [0, 0,
  0, 1], [0, 0, 1], [0, 2], [1]], [[0, 0, 0, 0, 1], [0, 0, 0, 2], [0, 0, 1], [0, 1], [2]], [[0, 0, 0, 1], [0, 0, 2]],
  [[0, 0, 1], [0, 1]], [[0, 2], [1]]]], [[[[0, 0, 0, 0, 0, 0, 1], [], [], [], [0, 0, 1], [0, 1], [1]], [[], [], [], [0,
  0, 2], [0, 1]], [[0, 0, 0, 0, 2], [], [0, 0, 2], [0, 2], [2]], [[0, 0, 0, 2], [0, 0, 1], [], [2]], [[], [0, 1], [1]],
  [[0, 1], [2]]]]], [[[[[], [0, 0, 0, 0, 0, 1], [0, 0, 0, 0, 1], [], [0, 0, 1]], [[0, 0, 0, 0, 0, 1], [0, 0, 0, 0, 2],
  [0, 0, 0, 2], [], [0, 1]], [[], [0, 0, 0, 2], [], [], [1]], [[0, 0, 0, 2], [], [0, 1], [1]], [[0, 0, 1], [0, 2]]],
  [[[0, 0, 0, 0, 0, 1], [], [], [], [0, 1], [2]], [[0, 0, 0, 0, 2], [], [0, 0, 1]], [[], [0, 0, 1], [0, 2]], [[0, 0, 2],
  [], [1]], [[0, 2]]], [[[0, 0, 0, 0, 2], [], [], [0, 1], [2]], [[], [], [0, 1]], [[0, 0, 1], [0, 2], [1]], [[0, 2]]]],
  [[[[0, 0, 0, 0, 0, 0, 1], [0, 0, 0, 0, 0, 1], [], [], [], [0, 1], [2]], [[0, 0, 0, 0, 0, 1], [0, 0, 0, 0, 2], [], [0,
  0, 1], [0, 1], [1]], [[0, 0, 0, 0, 1], [], [0, 0, 2]], [[], [0, 0, 1], [0, 1], [2]], [[0, 0, 2], [0, 1], [1]], [[0,
  2]]], [[[], [], [0, 0, 0, 1], [], [0, 1], [2]], [[], [0, 0, 0, 2], [], [0, 2]], [[0, 0, 0, 2], [0, 0, 2], [0, 1],
  [1]], [[0, 0, 2], [], [1]], [[0, 2]]], [[[0, 0, 0, 0, 1], [], [], [0, 2], [1]], [[], [], [0, 2]], [[0, 0, 2], [0, 1],
  [2]], [[0, 1]]]], [[[[], [], [], [0, 0, 0, 2], [], [0, 1]], [[0, 0, 0, 0, 0, 2], [], [], [0, 0, 1], [0, 1], [1]], [[0,
  0, 0, 0, 1], [0, 0, 0, 1], [0, 0, 1]], [[0, 0, 0, 2], [], [0, 1], [1]], [[0, 0, 1], [0, 1]]], [[[], [0, 0, 0, 0, 1],
  [0, 0, 0, 1], [0, 0, 1], [], [2]], [[0, 0, 0, 0, 1], [0, 0, 0, 2], [0, 0, 2], [0, 2], [2]], [[], [0, 0, 1]], [[0, 0,
  1]]]], [[[[], [], [0, 0, 0, 0, 1], [], [0, 0, 2], [0, 2]], [[0, 0, 0, 0, 0, 2], [0, 0, 0, 0, 2], [0, 0, 0, 1], [], [],
  [2]], [[0, 0, 0, 0, 2], [0, 0, 0, 1], [], [0, 1]], [[], [], [], [2]], [[0, 0, 1], [], [1]], [[0, 2]]]]]]

/-- `2 x_i^9`. -/
def k3Rest : List H4 :=
  [[[], [], [], [], [], [], [], [], [], [[[2]]]], [[[], [], [], [], [], [], [], [], [], [[2]]]], [[[[], [], [], [], [],
  [], [], [], [], [2]]]], [[[[0, 0, 0, 0, 0, 0, 0, 0, 0, 2]]]]]

theorem k3Cert_ok : (List.range 4).all (fun i => hzero4 (hcomb (k3Cert.getD i []) k3Partials (k3Rest.getD i []))) = true := by
  decide +kernel

theorem pderiv_two (i : Fin (3 + 1)) : pderiv i (2 : MvPolynomial (Fin (3 + 1)) (ZMod 3)) = 0 := by
  rw [show (2 : MvPolynomial (Fin (3 + 1)) (ZMod 3)) = C 2 from (map_ofNat C 2).symm, pderiv_C]

theorem k3_pderiv {L : Type} [Field L] [Algebra (ZMod 3) L] (x : Fin (3 + 1) → L) (i : Fin (3 + 1)) :
    aeval x (pderiv i k3Poly) = ev4 (x 0) (x 1) (x 2) (x 3) (k3Partials.getD i []) := by
  fin_cases i <;>
  · simp [k3Poly, pderiv_mul, pderiv_pow, pderiv_X, Pi.single_apply, pderiv_two, k3Partials, ev4, ev3, ev2, ev1, ev0, evL]
    ring

theorem k3_rest {L : Type} [Field L] (x : Fin (3 + 1) → L) (i : Fin (3 + 1)) :
    ev4 (x 0) (x 1) (x 2) (x 3) (k3Rest.getD i []) = 2 * x i ^ 9 := by
  fin_cases i <;>
  · simp [k3Rest, ev4, ev3, ev2, ev1, ev0, evL]
    ring

theorem k3_smooth : NoCommonZero.{0} (fun i => pderiv i k3Poly) := by
  intro L _ _ x hx
  have hp : Fact (Nat.Prime 3) := ⟨Nat.prime_three⟩
  have h3 : (3 : L) = 0 := by
    have := map_ofNat (algebraMap (ZMod 3) L) 3
    rw [← this, show (OfNat.ofNat 3 : ZMod 3) = 0 from rfl, map_zero]
  have h2 : (2 : L) ≠ 0 := by
    intro h
    have : (1 : L) = 3 - 2 := by norm_num
    rw [h3, h, sub_zero] at this
    exact one_ne_zero this
  have hd : ∀ a ∈ k3Partials, ev4 (x 0) (x 1) (x 2) (x 3) a = 0 := by
    intro a ha
    obtain ⟨i, hi, rfl⟩ := List.mem_iff_getElem.1 ha
    have hi' : i < 4 := hi
    have := hx ⟨i, hi'⟩
    beta_reduce at this
    rw [k3_pderiv] at this
    rw [← this]
    simp [List.getD_eq_getElem?_getD, List.getElem?_eq_getElem hi]
  funext i
  have hc := List.all_eq_true.1 k3Cert_ok i.val (List.mem_range.2 i.isLt)
  beta_reduce at hc
  have h0 := ev4_zero (x 0) (x 1) (x 2) (x 3) _ hc
  rw [hcomb_zero h3 _ _ _ _ _ _ _ hd, k3_rest] at h0
  exact pow_eq_zero_iff (by norm_num) |>.1 ((mul_eq_zero.1 h0).resolve_left h2)

/-- Its terms. -/
def k3Terms : MonMap (ZMod 3) :=
  [([0, 0, 0, 4], 1), ([0, 0, 1, 3], 2), ([0, 0, 2, 2], 1), ([0, 0, 3, 1], 1), ([0, 0, 4, 0], 1), ([0, 1, 0, 3], 1),
   ([0, 2, 1, 1], 1), ([0, 3, 0, 1], 2), ([0, 3, 1, 0], 1), ([0, 4, 0, 0], 1), ([1, 0, 0, 3], 2), ([1, 0, 2, 1], 2),
   ([1, 1, 0, 2], 1), ([1, 1, 1, 1], 1), ([1, 1, 2, 0], 2), ([1, 2, 0, 1], 1), ([1, 3, 0, 0], 1), ([2, 0, 0, 2], 1),
   ([2, 1, 0, 1], 2), ([2, 1, 1, 0], 1), ([2, 2, 0, 0], 1), ([3, 0, 0, 1], 1), ([3, 0, 1, 0], 2), ([3, 1, 0, 0], 1),
   ([4, 0, 0, 0], 1)]

theorem monomial_four (a b c d : ℤ) (r : ZMod 3) : monomial (expo (3 + 1) [a, b, c, d]) r =
    C r * (X 0 ^ a.toNat * X 1 ^ b.toNat * X 2 ^ c.toNat * X 3 ^ d.toNat) := by
  rw [monomial_eq, Finsupp.prod_fintype _ _ (fun i => by rw [pow_zero]), Fin.prod_univ_four]
  rfl

/-- The polynomial made from the vector. -/
theorem k3_toPoly : toPoly (3 + 1) (quartics.zip k3Vec) = k3Poly := by
  rw [← toPoly_filter, show (quartics.zip k3Vec).filter (fun e => decide (e.2 ≠ 0)) = k3Terms by decide +kernel, k3Terms, k3Poly]
  have t2 : Int.toNat 2 = 2 := rfl
  have t3 : Int.toNat 3 = 3 := rfl
  have t4 : Int.toNat 4 = 4 := rfl
  have h2 : (C 2 : MvPolynomial (Fin (3 + 1)) (ZMod 3)) = 2 := map_ofNat C 2
  simp only [toPoly_cons, toPoly_nil, monomial_four, map_one, h2, t2, t3, t4, Int.toNat_zero, Int.toNat_one, pow_zero, pow_one,
    one_mul, mul_one]
  ring

/-- The numbers of elements of the three parts of the basis. -/
theorem coeff_quartic : ((∑ j ∈ Finset.range (4 - 1), (Polynomial.X : Polynomial ℤ) ^ j) ^ (3 + 1)).coeff 0 = 1 ∧
    ((∑ j ∈ Finset.range (4 - 1), (Polynomial.X : Polynomial ℤ) ^ j) ^ (3 + 1)).coeff 4 = 19 ∧
    ((∑ j ∈ Finset.range (4 - 1), (Polynomial.X : Polynomial ℤ) ^ j) ^ (3 + 1)).coeff 8 = 1 := by
  have h : (∑ j ∈ Finset.range (4 - 1), (Polynomial.X : Polynomial ℤ) ^ j) ^ (3 + 1) =
      1 + 4 * Polynomial.X + 10 * Polynomial.X ^ 2 + 16 * Polynomial.X ^ 3 + 19 * Polynomial.X ^ 4 + 16 * Polynomial.X ^ 5 +
        10 * Polynomial.X ^ 6 + 4 * Polynomial.X ^ 7 + Polynomial.X ^ 8 := by
    simp only [Nat.reduceSub, Finset.sum_range_succ, Finset.sum_range_zero]
    ring
  rw [h]
  refine ⟨?_, ?_, ?_⟩ <;>
  simp [Polynomial.coeff_one, Polynomial.coeff_X, Polynomial.coeff_X_pow, Polynomial.coeff_ofNat_mul]

theorem digitsLost_k3 : digitsLost 3 3 1 7 = 6 ∧ digitsLost 3 3 2 7 = 7 ∧ digitsLost 3 3 3 8 = 11 := by
  refine ⟨?_, ?_, ?_⟩ <;> rw [digitsLost, frobFact] <;> decide +kernel

end Verif
