import Verif.Model.Text
import Verif.Model.DeRham

/-!
Model of `de_Rham_local::save` (dr/save.cc) and of the constructor reading the file (dr/constructors.cc:95-162), at
the level of characters.  Opening the files is not modelled; the name of the swap file is in Model/Memory.
-/

namespace Verif

/-- The rows of a matrix. -/
def matRows {R : Type} (U : CMat R) : List (List R) :=
  (List.range U.rows).map (fun i => (List.range U.cols).map (fun j => U.e i j))

/-- NTL's `MakeMatrix`: the number of columns is the length of the first row, 0 without rows; rows of other
lengths stop. -/
def makeMatrix {R : Type} [Zero R] (rows : List (List R)) : Res (CMat R) :=
  match rows with
  | [] => .ok (CMat.mk' 0 0 (fun _ _ => 0))
  | r :: _ =>
      if rows.all (fun s => s.length = r.length) then
        .ok (CMat.mk' rows.length r.length (fun i j => (rows.getD i []).getD j 0))
      else .error .abort

/-- `fbar[it->first] = rep(it->second) % p` (dr/init.cc:21-24). -/
def reduceMap (p : Nat) {q : Nat} (f : MonMap (ZMod q)) : MonMap (ZMod p) :=
  f.map (fun e => (e.1, ((e.2.val % p : Nat) : ZMod p)))

/-- `Hilbert_J` as a vector (dr/init.cc:60-72). -/
def hilbertList (d n : Nat) : List Int :=
  (List.range (((d : Int) - 2) * (n + 1) + 1).toNat).map (fun k => hilbertJ d n k)

/-- One line of the file. -/
def line (s : Str) : Str := s ++ ['\n']

def showBool (b : Bool) : Str := if b then ['1'] else ['0']

/-- The lines for one pair (dr/save.cc:45-47, 49-51). -/
def pairText {q : Nat} (BU : List Nat × CMat (ZMod q)) : Str :=
  line (showVec showInt (BU.1.map Int.ofNat)) ++ line (showMat showMod (matRows BU.2))

/-- `save` (dr/save.cc:24-51): the text written. -/
def saveText {q : Nat} (p : Nat) (solve : Solver (ZMod q)) (precision : Nat) (verbose saveMemory : Bool)
    (D : DR (ZMod q)) : Res Str := do
  let listD ← D.list D.d
  let dictD ← D.dict D.d
  let fv ← (reduceMap p D.f).foldlM (fun (v : List (ZMod p)) e => do
    let i ← look dictD e.1
    aset v i e.2) (List.replicate listD.length 0)
  let head := line (showInt p) ++ (line (showInt precision) ++ (line (showBool verbose) ++ (line (showBool saveMemory) ++
    (line (showInt D.n) ++ (line (showInt D.d) ++ (line (showVec showInt (hilbertList D.d D.n)) ++
    line (showVec showMod fv)))))))
  let body ← forRange D.n [] (fun i acc => do
    let BU ← solveJ solve D (((i : Int) + 1) * D.d - (D.n + 1))
    .ok (acc ++ pairText BU))
  let BU ← solveJ solve D D.topLevel
  .ok (head ++ (body ++ pairText BU))

/-- The object read from a file.  `solved` is the dictionary `solve_J`. -/
structure Loaded (P Q : Nat) where
  p : Int
  precision : Int
  verbose : Bool
  saveMemory : Bool
  n : Nat
  d : Nat
  hilbert : List Int
  f : MonMap (ZMod Q)
  fbar : MonMap (ZMod P)
  tupleList : List (List IVec)
  tupleDict : List (MonMap Nat)
  basis : List IVec
  basisDict : MonMap Nat
  solved : Int → Option (List Int × CMat (ZMod Q))

/-- Input of a `bool`: the integers 0 and 1. -/
def readBool (s : Str) : Res (Bool × Str) := do
  let r ← readInt s
  if r.1 = 0 then .ok (false, r.2) else if r.1 = 1 then .ok (true, r.2) else .error .abort

/-- Reading one pair (dr/constructors.cc:139-140, 148-149). -/
def readPair (q : Nat) (s : Str) : Res ((List Int × CMat (ZMod q)) × Str) := do
  let B ← readVec readInt s
  let rows ← readVec (readVec (readMod q)) B.2
  let U ← makeMatrix rows.1
  .ok ((B.1, U), rows.2)

/-- The state of the loop over the pairs: the stream, the dictionary, the basis. -/
abbrev LoadSt (q : Nat) := Str × (Int → Option (List Int × CMat (ZMod q))) × List IVec

/-- `de_Rham_local(const char* filename)` (dr/constructors.cc:95-162) under the moduli `p` of `zz_p` and `q` of
`ZZ_p`, with what is left of the stream.  The constructor of the non-degenerate object starts with the same lines
(dr_nd/dr_nd.cc:104-163). -/
def loadHead (p q : Nat) (s : Str) : Res (Loaded p q × Str) := do
  let rp ← readInt s
  check (decide (rp.1 = p))
  let rN ← readInt rp.2
  if rN.1 < 0 then .error .abort
  else
    check (decide ((p : Int) ^ rN.1.toNat = q))
    let rv ← readBool rN.2
    let rm ← readBool rv.2
    let rn ← readInt rm.2
    let rd ← readInt rn.2
    let rh ← readVec readInt rd.2
    let rf ← readVec (readMod p) rh.2
    if rn.1 < 0 ∨ rd.1 < 0 then .error .ub
    else
      let n := rn.1.toNat
      let d := rd.1.toNat
      let tl ← tupleTables n d
      let listD ← iget tl d
      check (decide (listD.length = rf.1.length))
      let terms := (listD.zip rf.1).filter (fun e => decide (e.2 ≠ 0))
      let f := MonMap.setAll [] (terms.map (fun e => (e.1, ((e.2.val : Nat) : ZMod q))))
      let fbar := MonMap.setAll [] terms
      let st ← forRange n ((rf.2, fun _ => none, []) : LoadSt q) (fun i st => do
        let level : Int := ((i : Int) + 1) * d - (n + 1)
        let r ← readPair q st.1
        let h ← iget rh.1 level
        check (decide (h = r.1.1.length))
        let L ← iget tl level
        let mons ← r.1.1.mapM (fun b => iget L b)
        .ok ((r.2, fun l => if l = level then some r.1 else st.2.1 l, st.2.2 ++ mons) : LoadSt q))
      let r ← readPair q st.1
      let top : Int := ((d : Int) - 2) * (n + 1) + 1
      .ok ({ p := rp.1, precision := rN.1, verbose := rv.1, saveMemory := rm.1, n := n, d := d, hilbert := rh.1, f := f,
             fbar := fbar, tupleList := tl, tupleDict := tl.map buildDict, basis := st.2.2,
             basisDict := buildDict st.2.2, solved := fun l => if l = top then some r.1 else st.2.1 l }, r.2)

/-- The object of the constructor (dr/constructors.cc:95-162): the rest of the file is not looked at. -/
def loadText (p q : Nat) (s : Str) : Res (Loaded p q) := do
  let r ← loadHead p q s
  .ok r.1

end Verif
