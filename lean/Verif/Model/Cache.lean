import Verif.Model.Batch

/-!
Model of the dictionaries of `de_Rham_local` (dr.h: `solve_J`, `reduction_matrix_J_dict`,
`reduction_matrix_J_ZZ_dict`, `inclusion_matrix_J_dict`, `final_reduction_matrix_J_dict`): the methods as
the code has them, looking a result up first and storing it after computing it.

`ZZ_p` is `ZMod q`.  The object `D` itself does not change after the constructor.
-/

namespace Verif

/-- `m.erase(k)`. -/
def MonMap.erase {V : Type} (m : MonMap V) (k : IVec) : MonMap V := m.filter (fun e => decide (e.1 ≠ k))

/-- The dictionaries. -/
structure JCache (q : Nat) where
  solveD : List (Int × (List Nat × CMat (ZMod q)))
  redD : MonMap (Nat → CMat (ZMod q))
  redZD : MonMap (Nat → CMat Int)
  inclD : MonMap (CMat (ZMod q))
  finalD : List (CMat (ZMod q))

/-- The dictionaries of a new object (the constructor has already filled some of `solve_J`; starting
with none only makes more calls compute). -/
def JCache.empty (q : Nat) : JCache q := ⟨[], [], [], [], []⟩

/-- A method: it may change the dictionaries and may stop the program. -/
abbrev JM (q : Nat) := StateT (JCache q) (Except Fail)

/-- A computation that does not touch the dictionaries. -/
def JM.pureRes {q : Nat} {α : Type} (x : Res α) : JM q α := fun st =>
  match x with
  | .ok a => .ok (a, st)
  | .error e => .error e

section

variable {q : Nat} (solve : Solver (ZMod q)) (D : DR (ZMod q)) (saveMemory : Bool)

/-- `get_solve_J(level)` (dr/get_solve_J.cc:10-36). -/
def cSolveJ (l : Int) : JM q (List Nat × CMat (ZMod q)) := fun st =>
  match st.solveD.lookup l with
  | some x => .ok (x, st)
  | none =>
      match solveJ solve D l with
      | .ok x => .ok (x, { st with solveD := (l, x) :: st.solveD })
      | .error e => .error e

/-- `compute_reduction_matrix_J(v)` (dr/compute_reduction_matrix_J.cc:13-111). -/
def cRedJ (v : IVec) : JM q (Nat → CMat (ZMod q)) := fun st =>
  match st.redD.find? v with
  | some Ms => .ok (Ms, st)
  | none => (do
      let top ← cSolveJ solve D D.topLevel
      let Ms ← JM.pureRes (redMatJ D top.2 v)
      modify (fun st => { st with redD := st.redD.set v Ms })
      pure Ms : JM q _) st

/-- `compute_reduction_matrix_J_ZZ(v)` (dr/compute_reduction_matrix_J_ZZ.cc:11-37). -/
def cRedJZ (v : IVec) : JM q (Nat → CMat Int) := fun st =>
  match st.redZD.find? v with
  | some Ms => .ok (Ms, st)
  | none =>
      match st.redD.find? v with
      | none => (do
          let Ms ← cRedJ solve D v
          modify (fun st => { st with redZD := st.redZD.set v (fun i => (Ms i).map liftZ) })
          if saveMemory then modify (fun st => { st with redD := st.redD.erase v })
          pure (fun i => (Ms i).map liftZ) : JM q _) st
      | some Ms =>
          .ok (fun i => (Ms i).map liftZ, { st with redZD := st.redZD.set v (fun i => (Ms i).map liftZ) })

/-- `get_reduction_matrix_J(u, v)` (dr/get_reduction_matrix_J.cc:9-31). -/
def cGetRedJ (u v : IVec) : JM q (CMat (ZMod q)) := do
  JM.pureRes (checkUV D u v)
  let Ms ← cRedJ solve D v
  pure (evalRed D.n Ms u)

/-- `reduce_vector_J(u, v, G)` (dr/reduce_vector_J.cc:7-29). -/
def cReduceJ (u v : IVec) (G : CVec (ZMod q)) : JM q (CVec (ZMod q)) := do
  JM.pureRes (checkUV D u v)
  let Ms ← cRedJ solve D v
  JM.pureRes (reduceWith D.n Ms u G)

/-- `reduce_vector_J_poly(u, v, k, G)` (dr/reduce_vector_J_poly.cc:9-48). -/
def cReduceJPoly (u v : IVec) (k : Int) (G : CVec (ZMod q)) : JM q (CVec (ZMod q)) := do
  JM.pureRes (checkUV D u v)
  let Ms ← cRedJ solve D v
  JM.pureRes (polyWith id D.n Ms u v k G)

/-- `get_reduction_matrix_J_ZZ(u, v)` (dr/get_reduction_matrix_J_ZZ.cc:10-30). -/
def cGetRedJZ (u v : IVec) : JM q (CMat Int) := do
  JM.pureRes (checkUV D u v)
  let Ms ← cRedJZ solve D saveMemory v
  pure (evalRed D.n Ms u)

/-- `reduce_vector_J_ZZ(u, v, G)` (dr/reduce_vector_J_ZZ.cc:8-29). -/
def cReduceJZ (u v : IVec) (G : CVec Int) : JM q (CVec Int) := do
  JM.pureRes (checkUV D u v)
  let Ms ← cRedJZ solve D saveMemory v
  JM.pureRes (reduceWith D.n Ms u G)

/-- `reduce_vector_J_poly_ZZ(u, v, k, G)` (dr/reduce_vector_J_poly_ZZ.cc:10-47). -/
def cReduceJPolyZ (u v : IVec) (k : Int) (G : CVec Int) : JM q (CVec Int) := do
  JM.pureRes (checkUV D u v)
  let Ms ← cRedJZ solve D saveMemory v
  JM.pureRes (polyWith (· % (q : Int)) D.n Ms u v k G)

/-- `get_inclusion_matrix_J(u)` (dr/get_inclusion_matrix_J.cc:14-34): the sum is checked first. -/
def cInclJ (u : IVec) : JM q (CMat (ZMod q)) := fun st =>
  if sumVec u ≠ D.n then .error .assertFail
  else
    match st.inclD.find? u with
    | some M => .ok (M, st)
    | none =>
        match inclMatJ D u with
        | .ok M => .ok (M, { st with inclD := st.inclD.set u M })
        | .error e => .error e

/-- The matrix number `k ≥ 2` computed from the one before it, `M_low`
(dr/compute_final_reduction_matrix_J.cc:39-107). -/
def cFinalBody (Mlow : CMat (ZMod q)) (k : Nat) : JM q (CMat (ZMod q)) := do
  let degG : Int := (k : Int) * D.d - (D.n + 1)
  let listG ← JM.pureRes (D.list degG)
  let listF ← JM.pureRes (D.list (degG - (D.d - 1)))
  let listH ← JM.pureRes (D.list (degG - D.d))
  let dictH ← JM.pureRes (D.dict (degG - D.d))
  let BU ← cSolveJ solve D degG
  let fact := prodFrom 1 (k - 1)
  let Mt ← JM.pureRes (forRange listG.length ((fun _ _ => 0) : Nat → Nat → ZMod q) (fun c Mt => do
    let col ← finalCol D Mlow listG listF listH dictH BU.1 BU.2 fact c
    pure (upd Mt c col.e)))
  pure (CMat.mk' D.basis.length listG.length (fun i j => Mt j i))

/-- `compute_final_reduction_matrix_J(k)` for `k` one more than the number of matrices stored
(dr/compute_final_reduction_matrix_J.cc:11-107). -/
def cFinalStep (k : Nat) : JM q Unit := fun st =>
  if k = 0 ∨ D.n < k then .error .assertFail
  else if k = 1 then
    match finalMat1 D with
    | .ok M => .ok ((), { st with finalD := st.finalD ++ [M] })
    | .error e => .error e
  else
    match st.finalD[k - 2]? with
    | none => .error .ub
    | some Mlow => (do
        let M ← cFinalBody solve D Mlow k
        modify (fun st => { st with finalD := st.finalD ++ [M] }) : JM q Unit) st

/-- `cnt` passes of the loop of `get_final_reduction_matrix_J`, starting with matrix number `k + 1`. -/
def cFinalLoop (k : Nat) : Nat → JM q Unit
  | 0 => pure ()
  | cnt + 1 => do
      cFinalStep solve D (k + 1)
      cFinalLoop (k + 1) cnt

/-- `get_final_reduction_matrix_J(k)` (dr/get_final_reduction_matrix_J.cc:10-27).  `SetLength` and the
assignments that follow are modelled as appending: nothing reads the empty matrices in between. -/
def cFinalJ (k : Nat) : JM q (CMat (ZMod q)) := fun st =>
  if D.n < k ∨ k = 0 then .error .assertFail
  else (do
    cFinalLoop solve D st.finalD.length (k - st.finalD.length)
    let st ← get
    match st.finalD[k - 1]? with
    | some M => pure M
    | none => JM.pureRes (.error .ub) : JM q _) st

/-- The loop of `monomial_to_basis_J` (dr/monomial_to_basis_J.cc:41-75). -/
def cMtbLoop : Nat → IVec → CVec (ZMod q) → JM q (IVec × CVec (ZMod q))
  | 0, w, G => pure (w, G)
  | cnt + 1, w, G => do
      let v ← JM.pureRes (direction D.d w)
      let w' ← JM.pureRes (subVec w v)
      let M ← cGetRedJ solve D w' v
      let G' ← JM.pureRes (M.mulVec G)
      cMtbLoop cnt w' G'

/-- `monomial_to_basis_J(u)` (dr/monomial_to_basis_J.cc:11-112). -/
def cMonomialJ (u : IVec) : JM q (CVec (ZMod q)) := do
  JM.pureRes (check (decide (u.length = D.n + 1)))
  JM.pureRes (check (u.all (fun x => decide (0 < x))))
  let sum := sumVec u
  if D.d = 0 then JM.pureRes (.error .ub)
  else do
    JM.pureRes (check (decide (sum % D.d = 0)))
    let m := sum / D.d
    if (D.n : Int) < m then do
      let listG ← JM.pureRes (D.list ((D.d : Int) * D.n - D.n))
      let dictG ← JM.pureRes (D.dict ((D.d : Int) * D.n - D.n))
      let w ← JM.pureRes (tweak u ((D.d : Int) * D.n - D.n))
      let s ← JM.pureRes (subVec u w)
      let k ← JM.pureRes (look dictG s)
      let st ← cMtbLoop solve D (m - D.n).toNat w (CVec.unit listG.length k)
      JM.pureRes (check (decide (sumVec st.1 = D.n)))
      let M ← cInclJ D st.1
      let G ← JM.pureRes (M.mulVec st.2)
      let M ← cFinalJ solve D D.n
      JM.pureRes (M.mulVec G)
    else do
      let L ← JM.pureRes (D.list (sum - (D.n + 1)))
      let dict ← JM.pureRes (D.dict (sum - (D.n + 1)))
      let k ← JM.pureRes (look dict (u.map (· - 1)))
      let M ← cFinalJ solve D m.toNat
      JM.pureRes (M.mulVec (CVec.unit L.length k))

/-- `compute_everything_J()` (dr/compute_everything_J.cc:9-26). -/
def cEverythingJ : JM q Unit := do
  let Ld ← JM.pureRes (D.list D.d)
  Ld.forM (fun v => do
    let _ ← cRedJ solve D v
    let _ ← cRedJZ solve D saveMemory v
    pure ())
  let Ln ← JM.pureRes (D.list D.n)
  Ln.forM (fun u => do
    let _ ← cInclJ D u
    pure ())
  let _ ← cFinalJ solve D D.n
  pure ()

end

end Verif
