import Verif.Spec.Charpoly
import Verif.Spec.Poly
import Mathlib.Algebra.MvPolynomial.Eval
import Mathlib.Data.ZMod.Basic

/-!
Specification for C78: the polynomials of the example inputs, and the number of points of a plane curve.
-/

namespace Verif.Spec

open MvPolynomial

/-- The plane quartic of examples/example_quartic_curve.input:
`z^4 + 6yz^3 - 2y^2z^2 + 75y^3z + y^4 - 2xyz^2 - xy^2z + xy^3 + 5x^2z^2 - x^2y^2 - 3x^3y + 15x^4`. -/
def curvePoly : List (List Int × Int) :=
  [([0, 0, 4], 1), ([0, 1, 3], 6), ([0, 2, 2], -2), ([0, 3, 1], 75), ([0, 4, 0], 1), ([1, 1, 2], -2), ([1, 2, 1], -1),
    ([1, 3, 0], 1), ([2, 0, 2], 5), ([2, 2, 0], -1), ([3, 1, 0], -3), ([4, 0, 0], 15)]

/-- The surface of examples/example_quartic_surface.input: `x^3y - xy^3 + z^3w - zw^3`. -/
def surfacePoly : List (List Int × Int) :=
  [([0, 0, 1, 3], -1), ([0, 0, 3, 1], 1), ([1, 3, 0, 0], -1), ([3, 1, 0, 0], 1)]

/-- The coefficient of `X^(b-1)` of `W` is minus the trace of Frobenius on the first cohomology of the curve `P = 0`, by the number of its
points over the prime field: `p + 1 - trace` points in the plane, so `1 + (p - 1)(p + 1 - trace)` zeros in affine space. -/
def CountsPoints (p b : ℕ) [NeZero p] (P : MvPolynomial (Fin 3) (ZMod p)) (W : Polynomial ℤ) : Prop :=
  ((Finset.univ.filter (fun x : Fin 3 → ZMod p => eval x P = 0)).card : ℤ) = 1 + (p - 1) * (p + 1 + W.coeff (b - 1))

end Verif.Spec
