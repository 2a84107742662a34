import Verif.Model.ND

/-!
The parallel loops over the columns of `compute_reduction_matrix_ND` (dr_nd/dr_nd.cc:907-1057) and
`compute_reduction_matrix_J` (dr/compute_reduction_matrix_J.cc:54-108), as what each iteration does to the shared
result.

An iteration reads the object, which does not change, and keeps `H`, `Hnew`, `F` to itself.  What it does to
the shared result is therefore a list known before the loop starts.
-/

namespace Verif

section

variable {R : Type} [CommRing R]

/-- `result[key][row][col] += x`. -/
structure Upd (R : Type) where
  key : IVec
  row : Nat
  col : Nat
  x : R

/-- One critical section: its additions, one after the other. -/
def critical (dim : Nat) (us : List (Upd R)) (res : MonMap (CMat R)) : Res (MonMap (CMat R)) :=
  us.foldlM (fun res u => matAdd dim res u.key u.row u.col u.x) res

/-- The additions of the critical section at dr_nd/dr_nd.cc:1022-1034. -/
def secCokernel (N : ND R) (listT : List IVec) (B : List Nat) (off : Nat) (key : IVec) (F : CVec R)
    (col : Nat) : Res (List (Upd R)) :=
  (List.range B.length).mapM (fun j => do
    let b ← aget B j
    let t ← aget listT b
    let row ← look N.ndDict t
    let x ← F.at (off + j)
    pure ⟨key, row, col, x⟩)

/-- The critical section at dr_nd/dr_nd.cc:1042-1054, in the pass `k == 0` only. -/
def secConst (k col : Nat) (H : MonMap (CVec R)) : Res (List (List (Upd R))) :=
  if k = 0 then do
    let us ← H.mapM (fun e => do
      let x ← e.2.at 0
      pure (⟨e.1, 0, col, x⟩ : Upd R))
    pure [us]
  else .ok []

/-- The body of the loop over the entries of `H` (dr_nd/dr_nd.cc:992-1036): `Hnew`, and the critical sections so
far. -/
def secEntry (N : ND R) (BU : List Nat × CMat R) (listS listT : List IVec) (k col : Nat)
    (st : MonMap (CVec R) × List (List (Upd R))) (e : IVec × CVec R) :
    Res (MonMap (CVec R) × List (List (Upd R))) := do
  let F ← BU.2.mulVec e.2
  let Hnew ← ndScatter N.n listS.length listS.length (fun s => .ok (s, listS.getD s [])) e.1 F st.1
  if k + 1 ≤ N.n then
    let us ← secCokernel N listT BU.1 ((N.n + 1) * listS.length) e.1 F col
    pure (Hnew, st.2 ++ [us])
  else pure (Hnew, st.2)

/-- The critical sections of `for (k = steps - 1; k >= 0; k--)` (dr_nd/dr_nd.cc:980-1056). -/
def secLoop (N : ND R) (solves : List (List Nat × CMat R)) (col : Nat) :
    Nat → MonMap (CVec R) → Res (List (List (Upd R)))
  | 0, _ => .ok []
  | k + 1, H => do
      let BU ← aget solves k
      let listS ← N.list ((k : Int) * N.d)
      let listT ← N.list (((k : Int) + 1) * N.d)
      let st ← H.foldlM (secEntry N BU listS listT k col) ([], [])
      let c ← secConst k col st.1
      let rest ← secLoop N solves col k st.1
      pure (st.2 ++ c ++ rest)

/-- The critical sections of one iteration, in order (dr_nd/dr_nd.cc:912-1057). -/
def secColumn (N : ND R) (solves : List (List Nat × CMat R)) (v : IVec) (col : Nat) :
    Res (List (List (Upd R))) := do
  let b ← aget N.ndBasis col
  if N.d = 0 then .error .ub
  else
    check (decide (sumVec b % N.d = 0))
    let st ← ndStart N solves v b (sumVec b / N.d)
    secLoop N solves col st.2 st.1

/-- `compute_reduction_matrix_ND(v)` up to the loop: the critical sections of every iteration
(dr_nd/dr_nd.cc:863-910). -/
def secsND (solve : Solver R) (N : ND R) (v : IVec) : Res (List (List (List (Upd R)))) := do
  check (decide (sumVec v = N.d))
  let low ← (List.range N.n).mapM (fun i : Nat => solveND solve N.toDR (((i : Int) + 1) * N.d))
  let top ← solveND solve N.toDR N.topND
  (List.range N.ndBasis.length).mapM (fun col => secColumn N (low ++ [top]) v col)

/-- The loop executed as the given order of critical sections, and what follows it (dr_nd/dr_nd.cc:1058-1071). -/
def runND [DecidableEq R] (N : ND R) (order : List (List (Upd R))) : Res (MonMap (CMat R)) := do
  let res ← order.foldlM (fun res us => critical N.ndBasis.length us res) []
  pure (res.filter (fun e => !e.2.isZero))

/-! ### compute_reduction_matrix_J -/

/-- `(*M)[m][row][col] += x`. -/
structure UpdJ (R : Type) where
  m : Nat
  row : Nat
  col : Nat
  x : R

/-- The additions of one iteration, in order (dr/compute_reduction_matrix_J.cc:62-107). -/
def updsColJ (D : DR R) (top : CMat R) (listG listF : List IVec) (dictG dictW : MonMap Nat) (v : IVec) (k : Nat) :
    Res (List (UpdJ R)) := do
  let w ← addVec (listG.getD k []) v
  match decAll w with
  | none => .ok []
  | some w => do
      check (decide (sumVec w = (D.d : Int) * D.n - 2 * D.n + D.d - 1))
      let cw ← look dictW w
      forRange (D.n + 1) [] (fun i us =>
        forRange listF.length us (fun s us => do
          let t ← addVec (listF.getD s []) (oneMinusE D.n i)
          let row ← look dictG t
          let F ← top.at (i * listF.length + s) cw
          pure (us ++ [⟨0, row, k, (((listF.getD s []).getD i 0 : Int) : R) * F⟩, ⟨i + 1, row, k, F⟩])))

/-- The additions of every iteration (dr/compute_reduction_matrix_J.cc:13-58). -/
def updsJ (D : DR R) (top : CMat R) (v : IVec) : Res (Nat × List (List (UpdJ R))) := do
  let listG ← D.list ((D.d : Int) * D.n - D.n)
  let dictG ← D.dict ((D.d : Int) * D.n - D.n)
  let dictW ← D.dict ((D.d : Int) * D.n - D.n + D.d - (D.n + 1))
  let listF ← D.list ((D.d : Int) * D.n - 2 * D.n)
  let us ← (List.range listG.length).mapM (fun k => updsColJ D top listG listF dictG dictW v k)
  pure (listG.length, us)

/-- The loop has no critical section, so one addition is two steps of its thread: the entry is read, and the sum is
written later. -/
inductive StepJ (R : Type) where
  | load (it : Nat) (u : UpdJ R)
  | store (it : Nat) (u : UpdJ R)

/-- The shared matrices, and for every iteration the value it has read. -/
structure MachJ (R : Type) where
  M : Nat → Nat → Nat → R
  reg : Nat → R

/-- One step. -/
def StepJ.exec : StepJ R → MachJ R → MachJ R
  | .load it u, s => { s with reg := fun j => if j = it then s.M u.m u.row u.col else s.reg j }
  | .store it u, s =>
      { s with M := fun a b c => if a = u.m ∧ b = u.row ∧ c = u.col then s.reg it + u.x else s.M a b c }

/-- The entry of the matrices a step touches. -/
def StepJ.loc : StepJ R → Nat × Nat × Nat
  | .load _ u => (u.m, u.row, u.col)
  | .store _ u => (u.m, u.row, u.col)

/-- The steps of one iteration. -/
def stepsJ (it : Nat) (us : List (UpdJ R)) : List (StepJ R) := us.flatMap (fun u => [.load it u, .store it u])

/-- The loop executed as the given order of steps, from the matrices set to zero
(dr/compute_reduction_matrix_J.cc:43-51). -/
def runJ (len : Nat) (order : List (StepJ R)) (reg : Nat → R) : Nat → CMat R :=
  let s := order.foldl (fun s a => a.exec s) ⟨fun _ _ _ => 0, reg⟩
  fun i => CMat.mk' len len (s.M i)

end

end Verif
