import Mathlib.Tactic.LinearCombination
import Mathlib.Algebra.Field.Basic

/-!
Certificates for C78: in characteristic 17 the partial derivatives of the two plane quartics in examples/ have no common zero.
-/

namespace Verif

/-- The quartic of examples/example_quartic_curve.input. -/
theorem curve_zero {L : Type*} [Field L] (hp : (17 : L) = 0) {x y z : L}
    (e0 : -2 * y * z ^ 2 - y ^ 2 * z + y ^ 3 + 10 * x * z ^ 2 - 2 * x * y ^ 2 - 9 * x ^ 2 * y + 60 * x ^ 3 = 0)
    (e1 : 6 * z ^ 3 - 4 * y * z ^ 2 + 225 * y ^ 2 * z + 4 * y ^ 3 - 2 * x * z ^ 2 - 2 * x * y * z + 3 * x * y ^ 2 - 2 * x ^ 2 *
    y - 3 * x ^ 3 = 0)
    (e2 : 4 * z ^ 3 + 18 * y * z ^ 2 - 4 * y ^ 2 * z + 75 * y ^ 3 - 4 * x * y * z - x * y ^ 2 + 10 * x ^ 2 * z = 0) :
    x = 0 ∧ y = 0 ∧ z = 0 := by
  refine ⟨?_, ?_, ?_⟩
  · have h : x ^ 7 = 0 := by
      linear_combination
        (-3 * x ^ 4 - 6 * x ^ 3 * y + x ^ 3 * z + 4 * x ^ 2 * y ^ 2 + 5 * x ^ 2 * y * z - 8 * x ^ 2 * z ^ 2 - 4 * x * y ^ 3 + 8
        * x * y ^ 2 * z - 2 * x * y * z ^ 2 + 3 * y ^ 4 + y ^ 3 * z + 2 * y ^ 2 * z ^ 2) * e0 + (2 * x ^ 4 + x ^ 3 * y + 7 * x ^
        3 * z + 8 * x ^ 2 * y ^ 2 - 8 * x ^ 2 * y * z - 3 * x ^ 2 * z ^ 2 + 2 * x * y ^ 3 - x * y ^ 2 * z + 4 * y ^ 4 - 5 * y ^
        3 * z) * e1 + (8 * x ^ 4 - x ^ 3 * y + 8 * x ^ 3 * z + 3 * x ^ 2 * y ^ 2 - 6 * x ^ 2 * y * z - 4 * x ^ 2 * z ^ 2 + 2 * x
        * y ^ 3 + 4 * x * y ^ 2 * z + 7 * y ^ 4) * e2 - (-4 * x ^ 4 * y * z ^ 2 + 54 * x ^ 4 * y ^ 2 * z + 19 * x ^ 4 * y ^ 3 -
        25 * x ^ 5 * z ^ 2 + 16 * x ^ 5 * y ^ 2 - 20 * x ^ 6 * y - 11 * x ^ 7 + 105 * x ^ 3 * y ^ 2 * z ^ 2 + 49 * x ^ 3 * y ^ 3
        * z + 8 * x ^ 3 * y ^ 4 + 12 * x ^ 3 * y * z ^ 3 + 15 * x ^ 5 * y * z + 7 * x ^ 6 * z - 127 * x ^ 2 * y ^ 3 * z ^ 2 + 79
        * x ^ 2 * y ^ 4 * z + 14 * x ^ 2 * y ^ 5 - 35 * x ^ 2 * y ^ 2 * z ^ 3 - 8 * x ^ 2 * y * z ^ 4 - 11 * x * y ^ 4 * z ^ 2 +
        41 * x * y ^ 5 * z + 9 * x * y ^ 6 + 6 * x * y ^ 3 * z ^ 3 + 2 * x * y ^ 2 * z ^ 4 - 60 * y ^ 5 * z ^ 2 + 50 * y ^ 6 * z
        + 32 * y ^ 7 + 4 * y ^ 4 * z ^ 3 - 2 * y ^ 3 * z ^ 4 - 2 * x ^ 2 * z ^ 5) * hp
    exact pow_eq_zero_iff (by norm_num) |>.1 h
  · have h : y ^ 7 = 0 := by
      linear_combination
        (4 * x ^ 4 + 3 * x ^ 3 * y - 8 * x ^ 3 * z - 6 * x ^ 2 * y ^ 2 + 8 * x ^ 2 * y * z + 5 * x ^ 2 * z ^ 2 - 7 * x * y ^ 3 +
        7 * x * y ^ 2 * z + 3 * x * y * z ^ 2 - 3 * y ^ 4 - 6 * y ^ 3 * z + 5 * y ^ 2 * z ^ 2) * e0 + (-5 * x ^ 4 + 6 * x ^ 3 *
        y + 6 * x ^ 3 * z - 2 * x ^ 2 * y ^ 2 + 8 * x ^ 2 * y * z - 8 * x ^ 2 * z ^ 2 + 6 * x * y ^ 3 - 4 * x * y ^ 2 * z + 3 *
        y ^ 4 - 4 * y ^ 3 * z) * e1 + (-8 * x ^ 4 + 2 * x ^ 3 * y - 6 * x ^ 2 * y ^ 2 + 6 * x ^ 2 * y * z - 5 * x ^ 2 * z ^ 2 -
        3 * x * y ^ 3 - 5 * x * y ^ 2 * z - 6 * y ^ 4) * e2 - (5 * x ^ 4 * y * z ^ 2 - 47 * x ^ 4 * y ^ 2 * z - 58 * x ^ 4 * y ^
        3 + 22 * x ^ 5 * z ^ 2 - 24 * x ^ 5 * y ^ 2 + 8 * x ^ 6 * y + 15 * x ^ 7 + 86 * x ^ 3 * y ^ 2 * z ^ 2 + 56 * x ^ 3 * y ^
        3 * z + 3 * x ^ 3 * y ^ 4 + 8 * x ^ 3 * y * z ^ 3 - 12 * x ^ 4 * z ^ 3 + 34 * x ^ 5 * y * z - 34 * x ^ 6 * z + 69 * x ^
        2 * y ^ 3 * z ^ 2 + 3 * x ^ 2 * y ^ 4 * z - 24 * x ^ 2 * y ^ 5 - 99 * x ^ 2 * y ^ 2 * z ^ 3 + 2 * x ^ 2 * y * z ^ 4 + 6
        * x ^ 3 * z ^ 4 - 58 * x * y ^ 4 * z ^ 2 + 59 * x * y ^ 5 * z - 11 * x * y ^ 6 - 7 * x * y ^ 3 * z ^ 3 - 59 * y ^ 5 * z
        ^ 2 + 40 * y ^ 6 * z - 26 * y ^ 7 + y ^ 4 * z ^ 3 - 2 * y ^ 3 * z ^ 4 - 4 * x ^ 2 * z ^ 5) * hp
    exact pow_eq_zero_iff (by norm_num) |>.1 h
  · have h : z ^ 7 = 0 := by
      linear_combination
        (-5 * x ^ 4 + 6 * x ^ 3 * y + x ^ 3 * z - 7 * x ^ 2 * y ^ 2 - 3 * x ^ 2 * y * z - 4 * x ^ 2 * z ^ 2 + 7 * x * y ^ 3 - x
        * y ^ 2 * z - 6 * x * y * z ^ 2 + 3 * x * z ^ 3 + 5 * y ^ 4 - 5 * y ^ 3 * z + 6 * y ^ 2 * z ^ 2 - 8 * y * z ^ 3 - 6 * z
        ^ 4) * e0 + (2 * x ^ 4 - 8 * x ^ 3 * y + 2 * x ^ 2 * y ^ 2 + 2 * x ^ 2 * y * z - 3 * x ^ 2 * z ^ 2 + 7 * x * y ^ 3 - 7 *
        x * y ^ 2 * z - 6 * x * z ^ 3 - 2 * y ^ 4 - 6 * y ^ 3 * z + 3 * z ^ 4) * e1 + (-6 * x ^ 4 - 8 * x ^ 3 * y + 3 * x ^ 3 *
        z - 3 * x ^ 2 * y ^ 2 + 2 * x ^ 2 * y * z - 6 * x ^ 2 * z ^ 2 - 3 * x * y ^ 3 - 6 * x * y ^ 2 * z - 2 * y ^ 4) * e2 -
        (-20 * x ^ 4 * y * z ^ 2 + 28 * x ^ 4 * y ^ 2 * z - x ^ 4 * y ^ 3 - 15 * x ^ 5 * z ^ 2 - 26 * x ^ 5 * y ^ 2 + 25 * x ^ 6
        * y - 18 * x ^ 7 + 8 * x ^ 3 * y ^ 2 * z ^ 2 - 107 * x ^ 3 * y ^ 3 * z - 22 * x ^ 3 * y ^ 4 - 31 * x ^ 3 * y * z ^ 3 + 8
        * x ^ 4 * z ^ 3 - 15 * x ^ 5 * y * z - x ^ 2 * y ^ 3 * z ^ 2 + 38 * x ^ 2 * y ^ 4 * z - 15 * x ^ 2 * y ^ 5 - 33 * x ^ 2
        * y ^ 2 * z ^ 3 - 4 * x ^ 2 * y * z ^ 4 - 23 * x ^ 3 * z ^ 4 - 94 * x * y ^ 4 * z ^ 2 + 65 * x * y ^ 5 * z - 12 * x * y
        ^ 6 - 5 * x * y ^ 3 * z ^ 3 - 78 * x * y ^ 2 * z ^ 4 - 4 * x * y * z ^ 5 - 81 * y ^ 5 * z ^ 2 - 28 * y ^ 6 * z - 9 * y ^
        7 - 2 * y ^ 3 * z ^ 4 + 41 * y ^ 2 * z ^ 5 - 6 * x * z ^ 6 + z ^ 7) * hp
    exact pow_eq_zero_iff (by norm_num) |>.1 h

/-- The quartic of examples/zeta_function_wrapper_genus3.cc. -/
theorem genus3_zero {L : Type*} [Field L] (hp : (17 : L) = 0) {x y z : L}
    (e0 : -4 * z ^ 3 - 3 * y * z ^ 2 - 3 * y ^ 2 * z - 4 * y ^ 3 + 2 * x * z ^ 2 + 6 * x * y * z + 2 * x * y ^ 2 + 3 * x ^ 2 * z
    + 3 * x ^ 2 * y = 0)
    (e1 : 6 * y * z ^ 2 + 8 * y ^ 3 - 3 * x * z ^ 2 - 6 * x * y * z - 12 * x * y ^ 2 + 3 * x ^ 2 * z + 2 * x ^ 2 * y + x ^ 3 =
    0)
    (e2 : 8 * z ^ 3 + 6 * y ^ 2 * z - 12 * x * z ^ 2 - 6 * x * y * z - 3 * x * y ^ 2 + 2 * x ^ 2 * z + 3 * x ^ 2 * y + x ^ 3 =
    0) :
    x = 0 ∧ y = 0 ∧ z = 0 := by
  refine ⟨?_, ?_, ?_⟩
  · have h : x ^ 7 = 0 := by
      linear_combination
        (7 * x ^ 4 - 5 * x ^ 3 * y + 5 * x ^ 3 * z - 3 * x ^ 2 * y ^ 2 - 5 * x ^ 2 * z ^ 2 - x * y ^ 3 - 8 * y ^ 4) * e0 + (-4 *
        x ^ 4 - 3 * x ^ 3 * y + 7 * x ^ 3 * z - 6 * x ^ 2 * y ^ 2 + 8 * x ^ 2 * y * z - 7 * x ^ 2 * z ^ 2 - 6 * x * y ^ 3 - 8 *
        x * y * z ^ 2 - 4 * y ^ 4) * e1 + (5 * x ^ 4 - 8 * x ^ 3 * y + 8 * x ^ 3 * z + 4 * x ^ 2 * y ^ 2 - 6 * x ^ 2 * y * z + 6
        * x ^ 2 * z ^ 2 + 8 * x * y ^ 3 + 6 * x * y ^ 2 * z - 4 * y ^ 4) * e2 - (-7 * x ^ 4 * z ^ 3 - x ^ 4 * y * z ^ 2 - 4 * x
        ^ 4 * y ^ 2 * z - x ^ 4 * y ^ 3 + x ^ 5 * z ^ 2 + 3 * x ^ 5 * y * z + 2 * x ^ 6 * z + x ^ 6 * y - x ^ 3 * y * z ^ 3 + 2
        * x ^ 3 * y ^ 2 * z ^ 2 - 4 * x ^ 3 * y ^ 3 * z + 3 * x ^ 3 * y ^ 4 - x ^ 3 * z ^ 4 + 7 * x ^ 2 * y ^ 2 * z ^ 3 - 7 * x
        ^ 2 * y ^ 3 * z ^ 2 + x ^ 2 * y ^ 4 * z - 2 * x ^ 2 * y ^ 5 + 4 * x ^ 2 * z ^ 5 - 3 * x ^ 2 * y * z ^ 4 + 4 * x * y ^ 3
        * z ^ 3 - x * y ^ 4 * z ^ 2 + 3 * x * y ^ 5 * z) * hp
    exact pow_eq_zero_iff (by norm_num) |>.1 h
  · have h : y ^ 7 = 0 := by
      linear_combination
        (4 * x ^ 4 + x ^ 3 * z - 3 * x ^ 2 * y ^ 2 + 6 * x ^ 2 * y * z + 7 * x ^ 2 * z ^ 2 - 2 * x * y ^ 3 + 2 * x * y ^ 2 * z +
        y ^ 4 - 7 * y ^ 3 * z) * e0 + (-7 * x ^ 4 - 8 * x ^ 3 * y - 7 * x ^ 3 * z + 4 * x ^ 2 * y ^ 2 - 2 * x ^ 2 * y * z + 6 *
        x ^ 2 * z ^ 2 + 2 * x * y ^ 3 - 7 * x * y ^ 2 * z - 5 * x * y * z ^ 2 + 7 * y ^ 4 + 5 * y ^ 3 * z + y ^ 2 * z ^ 2) * e1
        + (7 * x ^ 4 + 6 * x ^ 3 * y + 2 * x ^ 3 * z + 8 * x ^ 2 * y ^ 2 - 5 * x ^ 2 * y * z - 5 * x ^ 2 * z ^ 2 + 3 * x * y ^ 3
        + 3 * x * y ^ 2 * z - 8 * y ^ 4) * e2 - (4 * x ^ 4 * z ^ 3 - 3 * x ^ 4 * y * z ^ 2 + 8 * x ^ 4 * y ^ 2 * z + 2 * x ^ 4 *
        y ^ 3 - 4 * x ^ 5 * z ^ 2 + 5 * x ^ 5 * y ^ 2 + x ^ 6 * y + 4 * x ^ 3 * z ^ 4 + 6 * x ^ 3 * y * z ^ 3 - 8 * x ^ 3 * y ^
        2 * z ^ 2 - 3 * x ^ 3 * y ^ 3 * z + x ^ 2 * y ^ 2 * z ^ 3 + 3 * x ^ 2 * y ^ 3 * z ^ 2 + 3 * x ^ 2 * y ^ 4 * z - 8 * x ^
        3 * y ^ 4 - 2 * x ^ 2 * y * z ^ 4 - 4 * x ^ 2 * z ^ 5 - 3 * x * y ^ 3 * z ^ 3 - x * y ^ 4 * z ^ 2 - 6 * x * y ^ 5 * z -
        2 * x * y ^ 6 - x * y ^ 2 * z ^ 4 - y ^ 4 * z ^ 3 + 4 * y ^ 5 * z ^ 2 + y ^ 6 * z + 3 * y ^ 7 + 2 * y ^ 3 * z ^ 4) * hp
    exact pow_eq_zero_iff (by norm_num) |>.1 h
  · have h : z ^ 7 = 0 := by
      linear_combination
        (2 * x ^ 4 + 2 * x ^ 3 * y + 8 * x ^ 3 * z + 8 * x ^ 2 * y ^ 2 + 7 * x ^ 2 * y * z - 4 * x ^ 2 * z ^ 2 + 7 * x * y ^ 3 +
        3 * x * y ^ 2 * z + 3 * x * y * z ^ 2 + 2 * x * z ^ 3 - 4 * y ^ 4 - 4 * y ^ 3 * z - 5 * y ^ 2 * z ^ 2 - 3 * y * z ^ 3 +
        4 * z ^ 4) * e0 + (-3 * x ^ 4 - 2 * x ^ 3 * y - 4 * x ^ 3 * z - 2 * x ^ 2 * y ^ 2 - 7 * x ^ 2 * y * z - 4 * x ^ 2 * z ^
        2 - 7 * x * y ^ 3 - 5 * x * y ^ 2 * z + x * y * z ^ 2 - 2 * y ^ 4 + 5 * y ^ 3 * z - 4 * y ^ 2 * z ^ 2) * e1 + (3 * x ^ 4
        - 7 * x ^ 3 * y + x ^ 3 * z + 7 * x ^ 2 * y ^ 2 + 7 * x ^ 2 * y * z - 4 * x ^ 2 * z ^ 2 - 7 * x * y ^ 2 * z) * e2 - (7 *
        x ^ 4 * y * z ^ 2 + 11 * x ^ 4 * y ^ 2 * z + 3 * x ^ 4 * y ^ 3 - x ^ 5 * z ^ 2 + x ^ 5 * y * z + x ^ 5 * y ^ 2 - 7 * x ^
        3 * y * z ^ 3 - x ^ 3 * y ^ 2 * z ^ 2 - 2 * x ^ 3 * y ^ 3 * z + 2 * x ^ 3 * z ^ 4 + 2 * x ^ 2 * y ^ 2 * z ^ 3 + 4 * x ^
        2 * y ^ 3 * z ^ 2 + 5 * x ^ 2 * y ^ 4 * z + 2 * x ^ 2 * y ^ 5 + 2 * x ^ 2 * y * z ^ 4 - 7 * x * y ^ 3 * z ^ 3 - 8 * x *
        y ^ 4 * z ^ 2 - 9 * x * y ^ 5 * z - 4 * x * y ^ 6 - 5 * x * y ^ 2 * z ^ 4 + 5 * y ^ 4 * z ^ 3 + 4 * y ^ 6 * z + y ^ 2 *
        z ^ 5 - z ^ 7) * hp
    exact pow_eq_zero_iff (by norm_num) |>.1 h

/-- The quartic of examples/example_quartic_curve.input meets the coordinate lines transversally as well. -/
theorem curve_nondegenerate {L : Type*} [Field L] (hp : (17 : L) = 0) {x y z : L}
    (t0 : x * (-2 * y * z ^ 2 - y ^ 2 * z + y ^ 3 + 10 * x * z ^ 2 - 2 * x * y ^ 2 - 9 * x ^ 2 * y + 60 * x ^ 3) = 0)
    (t1 : y * (6 * z ^ 3 - 4 * y * z ^ 2 + 225 * y ^ 2 * z + 4 * y ^ 3 - 2 * x * z ^ 2 - 2 * x * y * z + 3 * x * y ^ 2 -
      2 * x ^ 2 * y - 3 * x ^ 3) = 0)
    (t2 : z * (4 * z ^ 3 + 18 * y * z ^ 2 - 4 * y ^ 2 * z + 75 * y ^ 3 - 4 * x * y * z - x * y ^ 2 + 10 * x ^ 2 * z) = 0) :
    x = 0 ∧ y = 0 ∧ z = 0 := by
  rcases mul_eq_zero.1 t0 with hx | e0
  · rcases mul_eq_zero.1 t1 with hy | e1
    · refine ⟨hx, hy, ?_⟩
      subst hx hy
      have h : z ^ 4 = 0 := by linear_combination 13 * t2 - 3 * z ^ 4 * hp
      exact pow_eq_zero_iff (by norm_num) |>.1 h
    · rcases mul_eq_zero.1 t2 with hz | e2
      · refine ⟨hx, ?_, hz⟩
        subst hx hz
        have h : y ^ 4 = 0 := by linear_combination 13 * t1 - 3 * y ^ 4 * hp
        exact pow_eq_zero_iff (by norm_num) |>.1 h
      · subst hx
        have h : y ^ 5 = 0 := by
          linear_combination (2 * y ^ 2 - 5 * z ^ 2) * e1 + (-y ^ 2 + 8 * y * z - z ^ 2) * e2 - (-57 * y ^ 2 * z ^ 3 -
            9 * y ^ 3 * z ^ 2 + 62 * y ^ 4 * z - 4 * y ^ 5 - 2 * z ^ 5 + 2 * y * z ^ 4) * hp
        have h' : z ^ 5 = 0 := by
          linear_combination (-8 * y ^ 2 + y * z) * e1 + (7 * y ^ 2 + 8 * y * z - 4 * z ^ 2) * e2 - (8 * y ^ 2 * z ^ 3 +
            3 * y ^ 3 * z ^ 2 - 72 * y ^ 4 * z + 29 * y ^ 5 - 2 * y * z ^ 4 - z ^ 5) * hp
        exact ⟨rfl, pow_eq_zero_iff (by norm_num) |>.1 h, pow_eq_zero_iff (by norm_num) |>.1 h'⟩
  · rcases mul_eq_zero.1 t1 with hy | e1
    · rcases mul_eq_zero.1 t2 with hz | e2
      · refine ⟨?_, hy, hz⟩
        subst hy hz
        have h : x ^ 4 = 0 := by linear_combination 2 * t0 - 7 * x ^ 4 * hp
        exact pow_eq_zero_iff (by norm_num) |>.1 h
      · subst hy
        have h : x ^ 5 = 0 := by
          linear_combination (2 * x ^ 2 - 3 * z ^ 2) * e0 + (-x * z) * e2 - (-10 * x ^ 3 * z ^ 2 + 7 * x ^ 5 - 2 * x * z ^ 4) * hp
        have h' : z ^ 5 = 0 := by
          linear_combination (2 * x * z) * e0 + (5 * x ^ 2 - 4 * z ^ 2) * e2 - (10 * x ^ 4 * z - z ^ 5) * hp
        exact ⟨pow_eq_zero_iff (by norm_num) |>.1 h, rfl, pow_eq_zero_iff (by norm_num) |>.1 h'⟩
    · rcases mul_eq_zero.1 t2 with hz | e2
      · subst hz
        have h : x ^ 5 = 0 := by
          linear_combination (7 * x ^ 2 - 6 * x * y - 7 * y ^ 2) * e0 + (-2 * x ^ 2 + 2 * x * y + 6 * y ^ 2) * e1 -
            (4 * x ^ 2 * y ^ 3 - 24 * x ^ 3 * y ^ 2 - 25 * x ^ 4 * y + 25 * x ^ 5 + 2 * x * y ^ 4 + y ^ 5) * hp
        have h' : y ^ 5 = 0 := by
          linear_combination (5 * x ^ 2 - 7 * x * y + 5 * y ^ 2) * e0 + (-2 * x ^ 2 + 5 * x * y - y ^ 2) * e1 -
            (-x ^ 2 * y ^ 3 + 20 * x ^ 3 * y ^ 2 - 28 * x ^ 4 * y + 18 * x ^ 5) * hp
        exact ⟨pow_eq_zero_iff (by norm_num) |>.1 h, pow_eq_zero_iff (by norm_num) |>.1 h', rfl⟩
      · exact curve_zero hp e0 e1 e2

/-- The surface of examples/zeta_function_wrapper_K3.cc, in characteristic 23. -/
theorem k3_zero {L : Type*} [Field L] (hp : (23 : L) = 0) {x y z w : L}
    (e0 : 4 * x ^ 3 + 3 * x ^ 2 * y + y ^ 3 = 0) (e1 : x ^ 3 + 3 * x * y ^ 2 = 0) (e2 : 3 * z ^ 2 * w + w ^ 3 = 0)
    (e3 : z ^ 3 + 3 * z * w ^ 2 = 0) : x = 0 ∧ y = 0 ∧ z = 0 ∧ w = 0 := by
  have hx : x ^ 5 = 0 := by
    linear_combination (3 * x ^ 2 - 2 * x * y) * e0 + (-11 * x ^ 2 - x * y - 7 * y ^ 2) * e1 - (-2 * x ^ 3 * y ^ 2 - x * y ^ 4) * hp
  have hy : y ^ 5 = 0 := by
    linear_combination (-3 * x ^ 2 + 8 * x * y + y ^ 2) * e0 + (-11 * x ^ 2 + 5 * y ^ 2) * e1 - (-x ^ 5 + x ^ 4 * y + x * y ^ 4) * hp
  have hz : z ^ 5 = 0 := by linear_combination (-4 * z * w) * e2 + (z ^ 2 + 9 * w ^ 2) * e3 - (z * w ^ 4) * hp
  have hw : w ^ 5 = 0 := by linear_combination (9 * z ^ 2 + w ^ 2) * e2 + (-4 * z * w) * e3 - (z ^ 4 * w) * hp
  exact ⟨pow_eq_zero_iff (by norm_num) |>.1 hx, pow_eq_zero_iff (by norm_num) |>.1 hy, pow_eq_zero_iff (by norm_num) |>.1 hz,
    pow_eq_zero_iff (by norm_num) |>.1 hw⟩

/-- The surface of examples/example_quartic_surface.input, in characteristic 5. -/
theorem surface_zero {L : Type*} [Field L] (hp : (5 : L) = 0) {x y z w : L}
    (e0 : 3 * x ^ 2 * y - y ^ 3 = 0) (e1 : x ^ 3 - 3 * x * y ^ 2 = 0) (e2 : 3 * z ^ 2 * w - w ^ 3 = 0)
    (e3 : z ^ 3 - 3 * z * w ^ 2 = 0) : x = 0 ∧ y = 0 ∧ z = 0 ∧ w = 0 := by
  have h : ∀ {z w : L}, 3 * z ^ 2 * w - w ^ 3 = 0 → z ^ 3 - 3 * z * w ^ 2 = 0 → z = 0 ∧ w = 0 := by
    intro z w e2 e3
    have hz : z ^ 5 = 0 := by
      linear_combination (-2 * z * w) * e2 + (z ^ 2 - w ^ 2) * e3 - (-2 * z ^ 3 * w ^ 2 + z * w ^ 4) * hp
    have hw : w ^ 5 = 0 := by
      linear_combination (z ^ 2 - w ^ 2) * e2 + (2 * z * w) * e3 - (z ^ 4 * w - 2 * z ^ 2 * w ^ 3) * hp
    exact ⟨pow_eq_zero_iff (by norm_num) |>.1 hz, pow_eq_zero_iff (by norm_num) |>.1 hw⟩
  exact ⟨(h e0 e1).1, (h e0 e1).2, (h e2 e3).1, (h e2 e3).2⟩

end Verif
