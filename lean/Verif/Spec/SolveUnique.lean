import Verif.Spec.SolveSystem

/-!
Specification of the matrix `U` returned by `solve_system`: not only `(T | J) U = 1`, but the columns of `T`
which are used are the first possible ones.  This determines `U`.
-/

namespace Verif.Spec

/-- Column `x` is a linear combination of the columns before it. -/
def DependentCol {F : Type} [Field F] (T : CMat F) (x : Nat) : Prop :=
  ∃ a : Nat → F, ∀ j, j < T.rows → T.e j x = ∑ l ∈ Finset.range x, a l * T.e j l

/-- `B`, `U` solve the system for `T` without using the columns which depend, in the residue field, on the
columns before them: the rows of `U` at these columns are zero.  `T'` is `T` modulo `p`. -/
structure ReducedSolution {F R : Type} [Field F] [CommRing R] (T' : CMat F) (T : CMat R) (B : List Nat)
    (U : CMat R) : Prop where
  solves : Solves T B U
  zero : ∀ l, l < T.cols → DependentCol T' l → ∀ b, b < T.rows → U.e l b = 0

end Verif.Spec
