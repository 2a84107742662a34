import Verif.Lemmas.CubicTable

/-!
The constructor and the reductions for `x^3 + y^3 + z^3 + y z^2` modulo 17, evaluated by the kernel from the certificates.
-/

namespace Verif

open Spec

variable {q : Nat}

/-- The answer from the table, by the size of the matrix. -/
def dimSolver (tab : List Cert) : Solver (ZMod q) := fun T =>
  match tab.find? (fun C => (C.T.length == T.rows) && (C.cols == T.cols)) with
  | none => .error .abort
  | some C => .ok (C.B, C.mat q)

/-- The matrix of `get_solve_ND(l)` is the one of the table. -/
def levelTest (tab : List Cert) (D : DR (ZMod q)) (l : Int) : Bool :=
  match matrixND D l with
  | .ok T => (match tab.find? (fun C => (C.T.length == T.rows) && (C.cols == T.cols)) with
    | none => false
    | some C => C.fits T)
  | .error _ => false

theorem levelTest_spec {p N : Nat} [Fact p.Prime] (hN : 1 ≤ N) (la : LinAlg (ZMod p)) (hla : LinAlgOK la) (flint : Bool)
    (precision : Nat) (hprec : N ≤ precision) {tab : List Cert} (htab : tab.all (Cert.good (p ^ N)) = true) {D : DR (ZMod (p ^ N))}
    {l : Int} (h : levelTest tab D l = true) : solveND (padicSolver p N la flint precision) D l = solveND (dimSolver tab) D l := by
  rw [levelTest] at h
  rw [solveND, solveND]
  cases e : matrixND D l with
  | error x => rfl
  | ok T =>
    rw [e] at h
    simp only at h
    rw [Res.bind_ok, Res.bind_ok, dimSolver]
    split at h
    · cases h
    · rename_i C hC
      exact Cert.padic hN la hla flint precision hprec (List.all_eq_true.1 htab C (List.mem_of_find?_eq_some hC)) h

theorem mapM_res_congr {α β : Type} {f g : α → Res β} : ∀ {l : List α}, (∀ x ∈ l, f x = g x) → l.mapM f = l.mapM g
  | [], _ => rfl
  | x :: l, h => by
    rw [List.mapM_cons, List.mapM_cons, h x (List.mem_cons_self ..), mapM_res_congr (fun y hy => h y (List.mem_cons_of_mem _ hy))]

/-- The reductions use the solver in the degrees `d, 2d, ..., nd` and `(d-1)(n+1)+1` only. -/
theorem getNDPolyZ_solver {solve solve' : Solver (ZMod q)} {N : ND (ZMod q)}
    (hlow : ∀ i : Nat, i < N.n → solveND solve N.toDR (((i : Int) + 1) * N.d) = solveND solve' N.toDR (((i : Int) + 1) * N.d))
    (htop : solveND solve N.toDR N.topND = solveND solve' N.toDR N.topND) (u v : IVec) :
    getNDPolyZ solve N u v = getNDPolyZ solve' N u v := by
  have h : redMatND solve N v = redMatND solve' N v := by
    rw [redMatND, redMatND, htop, mapM_res_congr (fun i hi => hlow i (List.mem_range.1 hi))]
  rw [getNDPolyZ, getNDPolyZ, redMatNDPolyZ, redMatNDPolyZ, redMatNDPoly, redMatNDPoly, h]

/-- The object is the one written out. -/
def sameND (N M : ND (ZMod q)) : Bool :=
  decide (N.n = M.n) && (decide (N.d = M.d) && (decide (N.f = M.f) && (decide (N.tupleList = M.tupleList) &&
    (decide (N.tupleDict = M.tupleDict) && (decide (N.basis = M.basis) && (decide (N.basisDict = M.basisDict) &&
    (decide (N.ndBasis = M.ndBasis) && decide (N.ndDict = M.ndDict))))))))

theorem sameND_spec {N M : ND (ZMod q)} (h : sameND N M = true) : N = M := by
  simp only [sameND, Bool.and_eq_true, decide_eq_true_eq] at h
  obtain ⟨⟨n, d, f, a, b, c, e⟩, g, k⟩ := N
  obtain ⟨⟨n', d', f', a', b', c', e'⟩, g', k'⟩ := M
  simp only at h
  obtain ⟨rfl, rfl, rfl, rfl, rfl, rfl, rfl, rfl, rfl⟩ := h
  rfl

/-- The constructor returns the object written out. -/
def cubicInit (q p : Nat) (solve : Solver (ZMod q)) : Bool :=
  match ND.init (tableSolver cubicTab solve) p (cubicYZ q) with
  | .ok N => sameND N (cubicObj q)
  | .error _ => false

set_option maxRecDepth 100000

theorem cubicTab_good : cubicTab.all (Cert.good (17 ^ 1)) = true := by
  run_tac do
    (← Lean.Elab.Tactic.getMainGoal).assign (Lean.mkApp2 (.const ``Eq.refl [1]) (.const ``Bool []) (.const ``true []))

theorem cubicInit_true (solve : Solver (ZMod (17 ^ 1))) : cubicInit (17 ^ 1) 17 solve = true := by
  run_tac do
    (← Lean.Elab.Tactic.getMainGoal).assign (Lean.mkApp2 (.const ``Eq.refl [1]) (.const ``Bool []) (.const ``true []))

theorem cubicLevels : [3, 6, 7].all (levelTest cubicTab (cubicObj (17 ^ 1)).toDR) = true := by
  run_tac do
    (← Lean.Elab.Tactic.getMainGoal).assign (Lean.mkApp2 (.const ``Eq.refl [1]) (.const ``Bool []) (.const ``true []))

theorem cubicPolys_lit : cubicPolys.all (fun t => litGood 9 4 t.2) = true := by
  run_tac do
    (← Lean.Elab.Tactic.getMainGoal).assign (Lean.mkApp2 (.const ``Eq.refl [1]) (.const ``Bool []) (.const ``true []))

theorem cubicPoly_0 : polyIs 9 4 (dimSolver cubicTab) (cubicObj (17 ^ 1)) (cubicPolys.getD 0 (([], []), [])) = true := by
  run_tac do
    (← Lean.Elab.Tactic.getMainGoal).assign (Lean.mkApp2 (.const ``Eq.refl [1]) (.const ``Bool []) (.const ``true []))

theorem cubicPoly_1 : polyIs 9 4 (dimSolver cubicTab) (cubicObj (17 ^ 1)) (cubicPolys.getD 1 (([], []), [])) = true := by
  run_tac do
    (← Lean.Elab.Tactic.getMainGoal).assign (Lean.mkApp2 (.const ``Eq.refl [1]) (.const ``Bool []) (.const ``true []))

theorem cubicPoly_2 : polyIs 9 4 (dimSolver cubicTab) (cubicObj (17 ^ 1)) (cubicPolys.getD 2 (([], []), [])) = true := by
  run_tac do
    (← Lean.Elab.Tactic.getMainGoal).assign (Lean.mkApp2 (.const ``Eq.refl [1]) (.const ``Bool []) (.const ``true []))

theorem cubicPoly_3 : polyIs 9 4 (dimSolver cubicTab) (cubicObj (17 ^ 1)) (cubicPolys.getD 3 (([], []), [])) = true := by
  run_tac do
    (← Lean.Elab.Tactic.getMainGoal).assign (Lean.mkApp2 (.const ``Eq.refl [1]) (.const ``Bool []) (.const ``true []))

theorem cubicPoly_4 : polyIs 9 4 (dimSolver cubicTab) (cubicObj (17 ^ 1)) (cubicPolys.getD 4 (([], []), [])) = true := by
  run_tac do
    (← Lean.Elab.Tactic.getMainGoal).assign (Lean.mkApp2 (.const ``Eq.refl [1]) (.const ``Bool []) (.const ``true []))

theorem cubicPoly_5 : polyIs 9 4 (dimSolver cubicTab) (cubicObj (17 ^ 1)) (cubicPolys.getD 5 (([], []), [])) = true := by
  run_tac do
    (← Lean.Elab.Tactic.getMainGoal).assign (Lean.mkApp2 (.const ``Eq.refl [1]) (.const ``Bool []) (.const ``true []))

theorem cubicPoly_6 : polyIs 9 4 (dimSolver cubicTab) (cubicObj (17 ^ 1)) (cubicPolys.getD 6 (([], []), [])) = true := by
  run_tac do
    (← Lean.Elab.Tactic.getMainGoal).assign (Lean.mkApp2 (.const ``Eq.refl [1]) (.const ``Bool []) (.const ``true []))

theorem cubicPoly_7 : polyIs 9 4 (dimSolver cubicTab) (cubicObj (17 ^ 1)) (cubicPolys.getD 7 (([], []), [])) = true := by
  run_tac do
    (← Lean.Elab.Tactic.getMainGoal).assign (Lean.mkApp2 (.const ``Eq.refl [1]) (.const ``Bool []) (.const ``true []))

theorem cubicPoly_8 : polyIs 9 4 (dimSolver cubicTab) (cubicObj (17 ^ 1)) (cubicPolys.getD 8 (([], []), [])) = true := by
  run_tac do
    (← Lean.Elab.Tactic.getMainGoal).assign (Lean.mkApp2 (.const ``Eq.refl [1]) (.const ``Bool []) (.const ``true []))

theorem cubicPoly_9 : polyIs 9 4 (dimSolver cubicTab) (cubicObj (17 ^ 1)) (cubicPolys.getD 9 (([], []), [])) = true := by
  run_tac do
    (← Lean.Elab.Tactic.getMainGoal).assign (Lean.mkApp2 (.const ``Eq.refl [1]) (.const ``Bool []) (.const ``true []))

theorem cubicPoly_10 : polyIs 9 4 (dimSolver cubicTab) (cubicObj (17 ^ 1)) (cubicPolys.getD 10 (([], []), [])) = true := by
  run_tac do
    (← Lean.Elab.Tactic.getMainGoal).assign (Lean.mkApp2 (.const ``Eq.refl [1]) (.const ``Bool []) (.const ``true []))

theorem cubicPolys_all (i : Nat) (h : i < 11) :
    polyIs 9 4 (dimSolver cubicTab) (cubicObj (17 ^ 1)) (cubicPolys.getD i (([], []), [])) = true := by
  match i, h with
  | 0, _ => exact cubicPoly_0
  | 1, _ => exact cubicPoly_1
  | 2, _ => exact cubicPoly_2
  | 3, _ => exact cubicPoly_3
  | 4, _ => exact cubicPoly_4
  | 5, _ => exact cubicPoly_5
  | 6, _ => exact cubicPoly_6
  | 7, _ => exact cubicPoly_7
  | 8, _ => exact cubicPoly_8
  | 9, _ => exact cubicPoly_9
  | 10, _ => exact cubicPoly_10

end Verif
