import Verif.Spec.Vec

/-!
Specification of exponent tuples: the objects `tuple_list_generator` has to list.
-/

namespace Verif.Spec

/-- `t` is an exponent vector in `n` variables of total degree `d`. -/
def IsTuple (n : Nat) (d : Int) (t : List Int) : Prop :=
  t.length = n ∧ NonNeg t ∧ deg t = d

end Verif.Spec
