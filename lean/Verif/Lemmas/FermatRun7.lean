import Verif.Lemmas.FermatRun

/-!
The sums modulo 7, evaluated by the kernel.  The solver is a variable; it is not called, since every matrix met is
one of those for which `runSolver` needs no solver.
-/

namespace Verif

set_option maxRecDepth 100000

/-- `frob_ND_flint`. -/
theorem fermat7_flint (solve : Solver (ZMod (7 ^ 1))) :
    fermatTest (7 ^ 1) 7 solve (fun N => sumIs (varNDFlint (runSolver solve) N 7) solve 7 0 5 N) = true := by
  run_tac do
    (← Lean.Elab.Tactic.getMainGoal).assign (Lean.mkApp2 (.const ``Eq.refl [1]) (.const ``Bool []) (.const ``true []))

/-- `frob_ND_ZZ_p`. -/
theorem fermat7_direct (solve : Solver (ZMod (7 ^ 1))) :
    fermatTest (7 ^ 1) 7 solve (fun N => sumIs (varNDP (runSolver solve) N 7 true) solve 7 0 6 N) = true := by
  run_tac do
    (← Lean.Elab.Tactic.getMainGoal).assign (Lean.mkApp2 (.const ``Eq.refl [1]) (.const ``Bool []) (.const ``true []))

end Verif
