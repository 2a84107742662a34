import Verif.Model.Batch
import Verif.Spec.DeRham

/-! Specification of sequences of reductions. -/

namespace Verif.Spec

/-- `k` single steps, at `u+(k-1)v`, `u+(k-2)v`, ..., `u`. -/
def singleSteps {α : Type} (step : List Int → α → Res α) (u v : List Int) : Nat → α → Res α
  | 0, G => .ok G
  | k + 1, G => step (List.zipWith (fun a b => a + k * b) u v) G >>= singleSteps step u v k

/-- One call in a sequence of reductions. -/
inductive RedCall
  /-- `reduce_vector_J(u, v, .)` -/
  | single (u v : List Int)
  /-- `reduce_vector_J_poly(u, v, k, .)` -/
  | batch (u v : List Int) (k : Nat)
  /-- reducing all entries modulo the modulus -/
  | rem

/-- The entries of the two vectors agree modulo `q`. -/
def CongrVec {q : Nat} (Z : CVec Int) (G : CVec (ZMod q)) : Prop :=
  Z.len = G.len ∧ ∀ r, r < G.len → ((Z.e r : Int) : ZMod q) = G.e r

end Verif.Spec

namespace Verif.Spec

/-- The calls one after the other, over `ZZ_p`. -/
def runP {q : Nat} (solve : Solver (ZMod q)) (D : DR (ZMod q)) : List RedCall → CVec (ZMod q) →
    Res (CVec (ZMod q))
  | [], G => .ok G
  | .single u v :: cs, G => reduceVectorJ solve D u v G >>= runP solve D cs
  | .batch u v k :: cs, G => reduceVectorJPoly solve D u v k G >>= runP solve D cs
  | .rem :: cs, G => runP solve D cs G

/-- The calls one after the other, over `ZZ`. -/
def runZ {q : Nat} (solve : Solver (ZMod q)) (D : DR (ZMod q)) : List RedCall → CVec Int → Res (CVec Int)
  | [], G => .ok G
  | .single u v :: cs, G => reduceVectorJZ solve D u v G >>= runZ solve D cs
  | .batch u v k :: cs, G => reduceVectorJPolyZ solve D u v k G >>= runZ solve D cs
  | .rem :: cs, G => runZ solve D cs (CVec.mk' G.len (fun r => G.e r % (q : Int)))

/-- The call meets the preconditions of the functions. -/
def RedCall.Valid (n d : Nat) : RedCall → Prop
  | .single u v => u.length = n + 1 ∧ IsTuple (n + 1) d v ∧ ∀ i, ev n u i = 0 ∨ 0 < ev n v i
  | .batch u v _ => u.length = n + 1 ∧ IsTuple (n + 1) d v ∧ ∀ i, ev n u i = 0 ∨ 0 < ev n v i
  | .rem => True

end Verif.Spec
