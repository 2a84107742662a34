import Verif.Core.Res

/-!
The polynomials of wrapper/test/test_zeta_function.cc, written out, and what the comparison in
hypersurface_nd/test/test_JND_and_invariance.cc means.
-/

namespace Verif.Spec

/-- The plane quartic of `test_genus3`: the terms in the order of the exponents. -/
def genus3Poly : List (List Int × Int) :=
  [([0, 0, 4], 2), ([0, 2, 2], 3), ([0, 4, 0], 2), ([1, 0, 3], -4), ([1, 1, 2], -3), ([1, 2, 1], -3), ([1, 3, 0], -4),
    ([2, 0, 2], 1), ([2, 1, 1], 3), ([2, 2, 0], 1), ([3, 0, 1], 1), ([3, 1, 0], 1)]

/-- The quartic surface of `test_dwork`: `x^4 + y^4 + z^4 + w^4 + xyzw`. -/
def dworkTestPoly : List (List Int × Int) :=
  [([0, 0, 0, 4], 1), ([0, 0, 4, 0], 1), ([0, 4, 0, 0], 1), ([1, 1, 1, 1], 1), ([4, 0, 0, 0], 1)]

/-- The quartic surface of `test_K3`: `x^4 + x^3 y + x y^3 + z^3 w + z w^3`. -/
def k3Poly : List (List Int × Int) :=
  [([0, 0, 1, 3], 1), ([0, 0, 3, 1], 1), ([1, 3, 0, 0], 1), ([3, 1, 0, 0], 1), ([4, 0, 0, 0], 1)]

end Verif.Spec
