import Verif.Model.Zeta
import Verif.Model.FrobND
import Verif.Model.SolveSystem

/-!
The two branches of `zeta_function` from the polynomial to the Frobenius matrix (wrapper/zeta_function.cc:134-152),
put together from the models of the constructors and of `frob_matrix_ND`, `frob_matrix_J`.
-/

namespace Verif

/-- `conv` of the matrix: the entries inside the dimensions. -/
def trimMat {R : Type} [Zero R] (M : CMat R) : CMat R := CMat.mk' M.rows M.cols M.e

/-- Lines 136-152 of wrapper/zeta_function.cc: the object, the number of elements of its basis and the matrix.  `la`
and `flint` stand for the elimination and the choice made in `solve_system_padic`, `pre` says whether there are
several threads, `order b` is the order in which the `b` iterations of the parallel loop run.  The table of powers is that of
`init_after_dR` (hypersurface/constructors.cc:6-21). -/
def frobRoutine (p : Nat) [Fact p.Prime] (la : LinAlg (ZMod p)) (flint pre : Bool) (order : Nat → List Nat) :
    FrobRoutine p := fun K nd g N =>
  if nd then do
    let D ← ND.init (fun T => solveSystemPadic la flint T K) p g
    let r ← frobMatrixND (fun T => solveSystemPadic la flint T K) D p pre (order D.basis.length) (fpowStart D.n) N
    .ok (D.basis.length, trimMat r.1)
  else do
    let D ← DR.init (fun T => solveSystemPadic la flint T K) p g
    let r ← frobMatrixJ (fun T => solveSystemPadic la flint T K) D p pre (order D.basis.length) (fpowStart D.n) N
    .ok (D.basis.length, trimMat r.1)

end Verif
