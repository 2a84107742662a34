import Verif.Model.Pipeline
import Verif.Model.FrobJI64

/-!
The two branches of `zeta_function` with the Frobenius functions whose exponent vectors are computed in 64 bits.
-/

namespace Verif

/-- Lines 136-152 of wrapper/zeta_function.cc, as `frobRoutine`, with `frobMatrixND64` and `frobMatrixJ64`. -/
def frobRoutine64 (p : Nat) [Fact p.Prime] (la : LinAlg (ZMod p)) (flint pre : Bool) (order : Nat → List Nat) :
    FrobRoutine p := fun K nd g N =>
  if nd then do
    let D ← ND.init (fun T => solveSystemPadic la flint T K) p g
    let r ← frobMatrixND64 (fun T => solveSystemPadic la flint T K) D p pre (order D.basis.length) (fpowStart D.n) N
    .ok (D.basis.length, trimMat r.1)
  else do
    let D ← DR.init (fun T => solveSystemPadic la flint T K) p g
    let r ← frobMatrixJ64 (fun T => solveSystemPadic la flint T K) D p pre (order D.basis.length) (fpowStart D.n) N
    .ok (D.basis.length, trimMat r.1)

end Verif
