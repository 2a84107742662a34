import Verif.Spec.SolveSystem
import Mathlib.Data.Matrix.Mul

/-!
Specification of the evaluation of a matrix polynomial at `0, 1, ..., k-1`.
-/

namespace Verif.Spec

variable {R : Type} [CommRing R]

/-- `M(y) = Σ_{i < len} y^i M_i` as a `d × d` matrix. -/
def evalMat (d len : Nat) (M : Nat → CMat R) (y : Nat) : Matrix (Fin d) (Fin d) R :=
  ∑ i ∈ Finset.range len, (y : R) ^ i • toMat (M i) d d

/-- `M(0) M(1) ... M(k-1) G`. -/
def evalProd (d len : Nat) (M : Nat → CMat R) (k : Nat) (G : Nat → R) : Fin d → R :=
  Matrix.mulVec ((List.range k).map (evalMat d len M)).prod (fun i => G i)

/-- The nonzero entries of `M_i` lie, for `1 <= j <= i < len`, in no lower row and in no column further left
than those of `M_j`: some nonzero entry of `M_j` is in the same row or below, and some in the same column or
to the left. -/
def NestedSupport {Q : Type} [Zero Q] (d len : Nat) (M : Nat → CMat Q) : Prop :=
  ∀ i < len, ∀ j < len, 1 ≤ j → j ≤ i → ∀ r < d, ∀ c < d, (M i).e r c ≠ 0 →
    (∃ r' c' : Fin d, r ≤ r'.val ∧ (M j).e r' c' ≠ 0) ∧ ∃ r' c' : Fin d, c'.val ≤ c ∧ (M j).e r' c' ≠ 0

end Verif.Spec
