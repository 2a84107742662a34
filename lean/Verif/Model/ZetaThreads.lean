import Verif.Model.Workers
import Verif.Model.Pipeline

/-!
The two branches of `zeta_function` from the polynomial to the Frobenius matrix with the dictionaries of the object and
a number of threads (wrapper/zeta_function.cc:41-45, 145-162).
-/

namespace Verif

/-- Lines 136-152 of wrapper/zeta_function.cc with `omp_set_num_threads(threads)` (line 42): a new object, whose
dictionaries are empty, and the call of `frob_matrix_ND` or `frob_matrix_J`.  With one thread the loop runs in
order and nothing is prepared; with several, `order b` is the order in which the `b` iterations run, `sched` gives the
schedules of the loops inside `frob_ND_flint`, and `ws K i` is the solver of the thread that runs iteration `i`. -/
def frobRoutineThreads (p : Nat) [Fact p.Prime] (la : LinAlg (ZMod p)) (flint saveMemory : Bool) (threads : Nat)
    (order : Nat → List Nat) (sched : Nat → Nat → Nat → List Nat) (ws : (K : Nat) → Nat → Solver (ZMod (p ^ K))) :
    FrobRoutine p := fun K nd g N =>
  if nd then do
    let D ← ND.init (fun T => solveSystemPadic la flint T K) p g
    let r ← (if 1 < threads then
        cFrobMatrixNDWorkers (fun T => solveSystemPadic la flint T K) D saveMemory (ws K) sched p (order D.basis.length)
          (fpowStart D.n) N (NDCache.empty _)
      else cFrobMatrixND (fun T => solveSystemPadic la flint T K) D saveMemory p false (List.range D.basis.length)
          (fpowStart D.n) N (NDCache.empty _))
    .ok (D.basis.length, trimMat r.1.1)
  else do
    let D ← DR.init (fun T => solveSystemPadic la flint T K) p g
    let r ← (if 1 < threads then
        cFrobMatrixJWorkers (fun T => solveSystemPadic la flint T K) saveMemory D (ws K) p (order D.basis.length)
          (fpowStart D.n) N (JCache.empty _)
      else cFrobMatrixJ (fun T => solveSystemPadic la flint T K) D saveMemory p false (List.range D.basis.length)
          (fpowStart D.n) N (JCache.empty _))
    .ok (D.basis.length, trimMat r.1.1)

end Verif
