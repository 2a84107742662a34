import Verif.Spec.Cache
import Verif.Model.CacheFrob

/-! Specification for the dictionaries under the Frobenius functions of `hypersurface`: sequences of calls. -/

namespace Verif.Spec

/-- A call of a method of `de_Rham_local` that uses a dictionary, or of a Frobenius function of `hypersurface` with
the given table of powers of `f`. -/
inductive HCall (q : Nat)
  | base (c : JCall q)
  | frobZ (p : Nat) (kind : LoopKind) (T : List (MonMap (ZMod q))) (coord N : Nat)
  | frobP (p : Nat) (kind : LoopKind) (T : List (MonMap (ZMod q))) (coord N : Nat)
  | frobMatrix (p : Nat) (pre : Bool) (order : List Nat) (T : List (MonMap (ZMod q))) (N : List Int)

/-- What a call returns. -/
inductive HOut (q : Nat)
  | base (x : JOut q)
  | frob (r : CVec (ZMod q) × List (MonMap (ZMod q)))
  | frobMat (r : CMat (ZMod q) × List (MonMap (ZMod q)))

variable {q : Nat} (solve : Solver (ZMod q)) (D : DR (ZMod q))

/-- The method called. -/
def HCall.run (saveMemory : Bool) : HCall q → JM q (HOut q)
  | .base c => do let x ← c.run solve D saveMemory; pure (.base x)
  | .frobZ p kind T c N => do let x ← cFrobJZ solve D saveMemory p kind T c N; pure (.frob x)
  | .frobP p kind T c N => do let x ← cFrobJP solve D p kind T c N; pure (.frob x)
  | .frobMatrix p pre o T N => do let x ← cFrobMatrixJ solve D saveMemory p pre o T N; pure (.frobMat x)

/-- A sequence of calls on one object: the values returned. -/
def runCallsH (saveMemory : Bool) : List (HCall q) → JM q (List (HOut q))
  | [] => pure []
  | c :: cs => do
      let x ← c.run solve D saveMemory
      let xs ← runCallsH saveMemory cs
      pure (x :: xs)

/-- The value the call returns on an object whose dictionaries are all empty. -/
def HCall.fresh (saveMemory : Bool) (c : HCall q) : Res (HOut q) :=
  (c.run solve D saveMemory (JCache.empty q)).map Prod.fst

/-- The value according to the functions without dictionaries. -/
def HCall.value : HCall q → Res (HOut q)
  | .base c => do let x ← c.value solve D; pure (.base x)
  | .frobZ p kind T c N => do let x ← frobFun (varZ solve D p kind) solve D p T c N; pure (.frob x)
  | .frobP p kind T c N => do let x ← frobFun (varP solve D p kind) solve D p T c N; pure (.frob x)
  | .frobMatrix p pre o T N => do
      check (decide (D.n = N.length))
      if pre then do
        let _ ← JCall.value solve D .everything
      let x ← frobMatrixJ solve D p pre o T N
      pure (.frobMat x)

end Verif.Spec
