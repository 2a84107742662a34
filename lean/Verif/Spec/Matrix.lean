import Mathlib.Data.Matrix.Mul

/-!
Specification: how a flat array represents a matrix in row-major order.
-/

namespace Verif.Spec

/-- The array `a` holds the `r × c` matrix `A` in row-major order and nothing else. -/
def RowMajor {r c : Nat} (a : List Int) (A : Matrix (Fin r) (Fin c) ℤ) : Prop :=
  a.length = r * c ∧ ∀ (i : Fin r) (j : Fin c), a[i.val * c + j.val]? = some (A i j)

/-- The array `a` holds the vector `v` and nothing else. -/
def IsVec {n : Nat} (a : List Int) (v : Fin n → ℤ) : Prop :=
  a.length = n ∧ ∀ i : Fin n, a[i.val]? = some (v i)

end Verif.Spec
