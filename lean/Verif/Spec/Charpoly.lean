import Mathlib.Algebra.Polynomial.AlgebraMap
import Mathlib.Analysis.Complex.Norm
import Mathlib.Analysis.SpecialFunctions.Pow.Real

/-!
Specification of Frobenius characteristic polynomials and of the precision `charpoly_frob` works at.
-/

namespace Verif.Spec

open Polynomial

/-- The power of `p` relating the coefficients `i` and `b - i` of a polynomial of degree `b` that
satisfies a functional equation of weight `dim`. -/
def halfWeight (b dim i : Nat) : Nat := ((b - 2 * i) * dim) / 2

/-- The functional equation of weight `dim` and sign `ε`. -/
def FunctionalEquation (P : ℤ[X]) (b p dim : Nat) (ε : ℤ) : Prop :=
  ∀ i, 2 * i ≤ b → P.coeff i = ε * (p : ℤ) ^ halfWeight b dim i * P.coeff (b - i)

/-- All complex roots have absolute value `p^(dim/2)`. -/
def WeilRoots (P : ℤ[X]) (p dim : Nat) : Prop :=
  ∀ z : ℂ, aeval z P = 0 → ‖z‖ ^ 2 = (p : ℝ) ^ dim

/-- The precision of coefficient `i` after the functional equation has been used to transfer
precision between the coefficients `i` and `b - i`. -/
def sharedPrec (b dim : Nat) (prec : Nat → Int) (i : Nat) : Int :=
  if 2 * i ≤ b then max (prec i) (prec (b - i) + halfWeight b dim i)
  else max (prec i) (prec (b - i) - halfWeight b dim (b - i))

/-- `k * p^prec > 2 * b * p^(dim*k/2)`: enough to tell apart the integers bounded by
`b * p^(dim*k/2)` modulo `k * p^prec`. -/
def EnoughPrec (b p dim : Nat) (prec : Nat → Int) : Prop :=
  ∀ k, 1 ≤ k → k ≤ b →
    0 ≤ sharedPrec b dim prec (b - k) ∧
    (2 * b : ℝ) * (p : ℝ) ^ ((dim * k : ℝ) / 2) < k * (p : ℝ) ^ (sharedPrec b dim prec (b - k))

end Verif.Spec
