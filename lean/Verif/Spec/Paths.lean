import Verif.Spec.DeRham
import Verif.Model.Paths

/-! Specification of reduction paths. -/

namespace Verif.Spec

/-- `vs` is a path of reduction directions from `u`: every `v` has degree `d`, is nowhere above the
current point and positive wherever that is positive; the last point has degree `n`. -/
def IsPath (n d : Nat) : (Fin (n + 1) → ℤ) → List (List Int) → Prop
  | u, [] => ∑ i, u i = n
  | u, v :: vs => IsTuple (n + 1) d v ∧ (∀ i, ev n v i ≤ u i) ∧ (∀ i, 0 < u i → 0 < ev n v i) ∧
      IsPath n d (u - ev n v) vs

end Verif.Spec
