import Verif.Lemmas.FermatRun

/-!
The sum of `frob_ND_flint` modulo 17, evaluated by the kernel; as in `FermatRun7`.
-/

namespace Verif

set_option maxRecDepth 100000

theorem fermat17_flint (solve : Solver (ZMod (17 ^ 1))) :
    fermatTest (17 ^ 1) 17 solve (fun N => sumFails (varNDFlint (runSolver solve) N 17) solve 17 N) = true := by
  run_tac do
    (← Lean.Elab.Tactic.getMainGoal).assign (Lean.mkApp2 (.const ``Eq.refl [1]) (.const ``Bool []) (.const ``true []))

end Verif
