import Mathlib.LinearAlgebra.Matrix.Rank
import Verif.Spec.DeRham
import Verif.Model.Smooth

/-! Specification of the smoothness tests and of the random matrices. -/

namespace Verif.Spec

open MvPolynomial

universe u

variable {F : Type} [Field F] {n : Nat}

/-- Every monomial of degree `l` is in the ideal generated by the `g_i`. -/
def DegreeInIdeal (l : Nat) (g : Fin (n + 1) → MvPolynomial (Fin (n + 1)) F) : Prop :=
  ∀ a : Fin (n + 1) →₀ ℕ, ∑ i, a i = l → monomial a (1 : F) ∈ Ideal.span (Set.range g)

/-- The `g_i` have no common zero except the origin, over any extension field. -/
def NoCommonZero (g : Fin (n + 1) → MvPolynomial (Fin (n + 1)) F) : Prop :=
  ∀ (K : Type u) [Field K] [Algebra F K] (x : Fin (n + 1) → K), (∀ i, aeval x (g i) = 0) → x = 0

/-- The contract of the rank and determinant routines. -/
structure RankDetOK (la : RankDet F) : Prop where
  rank : ∀ M, la.rank M = (toMat M M.rows M.cols).rank
  det : ∀ (M : CMat F) (n : Nat), M.rows = n → M.cols = n → la.det M = (toMat M n n).det

end Verif.Spec
