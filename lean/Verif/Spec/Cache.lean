import Verif.Model.Cache

/-! Specification for the dictionaries: sequences of calls. -/

namespace Verif.Spec

/-- A call of a method of `de_Rham_local` that uses a dictionary. -/
inductive JCall (q : Nat)
  | solve (l : Int)
  | mat (u v : IVec)
  | matZ (u v : IVec)
  | red (u v : IVec) (G : CVec (ZMod q))
  | redPoly (u v : IVec) (k : Int) (G : CVec (ZMod q))
  | redZ (u v : IVec) (G : CVec Int)
  | redPolyZ (u v : IVec) (k : Int) (G : CVec Int)
  | incl (u : IVec)
  | final (k : Nat)
  | monomial (u : IVec)
  | everything

/-- What a call returns. -/
inductive JOut (q : Nat)
  | pair (x : List Nat × CMat (ZMod q))
  | mat (M : CMat (ZMod q))
  | matZ (M : CMat Int)
  | vec (G : CVec (ZMod q))
  | vecZ (G : CVec Int)
  | unit

variable {q : Nat}

/-- The method called. -/
def JCall.run (solve : Solver (ZMod q)) (D : DR (ZMod q)) (saveMemory : Bool) : JCall q → JM q (JOut q)
  | .solve l => do let x ← cSolveJ solve D l; pure (.pair x)
  | .mat u v => do let x ← cGetRedJ solve D u v; pure (.mat x)
  | .matZ u v => do let x ← cGetRedJZ solve D saveMemory u v; pure (.matZ x)
  | .red u v G => do let x ← cReduceJ solve D u v G; pure (.vec x)
  | .redPoly u v k G => do let x ← cReduceJPoly solve D u v k G; pure (.vec x)
  | .redZ u v G => do let x ← cReduceJZ solve D saveMemory u v G; pure (.vecZ x)
  | .redPolyZ u v k G => do let x ← cReduceJPolyZ solve D saveMemory u v k G; pure (.vecZ x)
  | .incl u => do let x ← cInclJ D u; pure (.mat x)
  | .final k => do let x ← cFinalJ solve D k; pure (.mat x)
  | .monomial u => do let x ← cMonomialJ solve D u; pure (.vec x)
  | .everything => do cEverythingJ solve D saveMemory; pure .unit

/-- A sequence of calls on one object: the values returned. -/
def runCalls (solve : Solver (ZMod q)) (D : DR (ZMod q)) (saveMemory : Bool) : List (JCall q) → JM q (List (JOut q))
  | [] => pure []
  | c :: cs => do
      let x ← c.run solve D saveMemory
      let xs ← runCalls solve D saveMemory cs
      pure (x :: xs)

/-- The value the call returns on an object whose dictionaries are all empty. -/
def JCall.fresh (solve : Solver (ZMod q)) (D : DR (ZMod q)) (saveMemory : Bool) (c : JCall q) : Res (JOut q) :=
  (c.run solve D saveMemory (JCache.empty q)).map Prod.fst

/-- The value according to the functions without dictionaries. -/
def JCall.value (solve : Solver (ZMod q)) (D : DR (ZMod q)) : JCall q → Res (JOut q)
  | .solve l => do let x ← solveJ solve D l; pure (.pair x)
  | .mat u v => do let x ← getReductionMatrixJ solve D u v; pure (.mat x)
  | .matZ u v => do let x ← getReductionMatrixJZ solve D u v; pure (.matZ x)
  | .red u v G => do let x ← reduceVectorJ solve D u v G; pure (.vec x)
  | .redPoly u v k G => do let x ← reduceVectorJPoly solve D u v k G; pure (.vec x)
  | .redZ u v G => do let x ← reduceVectorJZ solve D u v G; pure (.vecZ x)
  | .redPolyZ u v k G => do let x ← reduceVectorJPolyZ solve D u v k G; pure (.vecZ x)
  | .incl u => do let x ← inclMatJ D u; pure (.mat x)
  | .final k => do let x ← finalMatJ solve D k; pure (.mat x)
  | .monomial u => do let x ← monomialToBasisJ solve D u; pure (.vec x)
  | .everything => do
      let Ld ← D.list D.d
      Ld.forM (fun v => do let _ ← freshRedJ solve D v; pure ())
      let Ln ← D.list D.n
      Ln.forM (fun u => do let _ ← inclMatJ D u; pure ())
      let _ ← finalMatJ solve D D.n
      pure .unit

end Verif.Spec
