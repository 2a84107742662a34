import Verif.Model.Float

/-!
What is asked of floating point arithmetic (C76).
-/

namespace Verif.Spec

/-- Every operation returns the exact result up to the relative error `u`, and the exact result itself if that is an
integer up to `2^53`.  IEEE doubles without overflow and underflow have `u = 2^-53` for `+`, `*`, `/`, and the usual
mathematical libraries `2^-52` for `log` (the rounding of an argument above `2^53` included). -/
structure FlOK (u : ℝ) (F : FlOps) : Prop where
  log : ∀ m : Nat, 1 ≤ m → |F.log m - Real.log m| ≤ u * Real.log m
  add : ∀ x y : ℝ, |F.add x y - (x + y)| ≤ u * |x + y|
  div : ∀ x y : ℝ, y ≠ 0 → |F.div x y - x / y| ≤ u * |x / y|
  mul : ∀ x y : ℝ, |F.mul x y - x * y| ≤ u * |x * y|
  add_int : ∀ (x y : ℝ) (m : ℤ), |m| ≤ 2 ^ 53 → x + y = m → F.add x y = m
  div_int : ∀ (x y : ℝ) (m : ℤ), y ≠ 0 → |m| ≤ 2 ^ 53 → x / y = m → F.div x y = m
  mul_int : ∀ (x y : ℝ) (m : ℤ), |m| ≤ 2 ^ 53 → x * y = m → F.mul x y = m

end Verif.Spec
