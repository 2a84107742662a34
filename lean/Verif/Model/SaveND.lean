import Verif.Model.Save
import Verif.Model.ND

/-!
Model of `de_Rham_non_degenerate_local::save` (dr_nd/dr_nd.cc:245-316) and of the constructor reading the file
(dr_nd/dr_nd.cc:104-192), at the level of characters.  Opening the files is not modelled.
-/

namespace Verif

/-- `Hilbert_ND` as a vector (dr_nd/dr_nd.cc:201-213). -/
def hilbertNDList (d n : Nat) : List Int :=
  (List.range (((d : Int) - 1) * (n + 1) + 1).toNat).map (fun k => hilbertND d n k)

/-- The lines after the pairs of `solve_J` (dr_nd/dr_nd.cc:291-302). -/
def saveTailND {q : Nat} (solve : Solver (ZMod q)) (D : DR (ZMod q)) : Res Str := do
  let body ← forRange (D.n + 1) [] (fun i acc => do
    let BU ← solveND solve D ((i : Int) * D.d)
    .ok (acc ++ pairText BU))
  let BU ← solveND solve D D.topND
  .ok (line (showVec showInt (hilbertNDList D.d D.n)) ++ (body ++ pairText BU))

/-- `save` of the non-degenerate object (dr_nd/dr_nd.cc:262-302): the text written.  Up to the pairs of `solve_J` it
writes what `de_Rham_local::save` writes. -/
def saveTextND {q : Nat} (p : Nat) (solve : Solver (ZMod q)) (precision : Nat) (verbose saveMemory : Bool)
    (D : ND (ZMod q)) : Res Str := do
  let head ← saveText p solve precision verbose saveMemory D.toDR
  let tail ← saveTailND solve D.toDR
  .ok (head ++ tail)

/-- The object read from a file.  `solvedND` is the dictionary `solve_ND`. -/
structure LoadedND (P Q : Nat) extends Loaded P Q where
  hilbertND : List Int
  ndBasis : List IVec
  ndDict : MonMap Nat
  solvedND : Int → Option (List Int × CMat (ZMod Q))

/-- `de_Rham_non_degenerate_local(const char* filename)` (dr_nd/dr_nd.cc:104-192) under the moduli `p` of `zz_p` and
`q` of `ZZ_p`. -/
def loadTextND (p q : Nat) (s : Str) : Res (LoadedND p q) := do
  let X ← loadHead p q s
  let rh ← readVec readInt X.2
  let n := X.1.n
  let d := X.1.d
  let st ← forRange (n + 1) ((rh.2, fun _ => none, []) : LoadSt q) (fun i st => do
    let level : Int := (i : Int) * d
    let r ← readPair q st.1
    let h ← iget rh.1 level
    check (decide (h = r.1.1.length))
    let L ← iget X.1.tupleList level
    let mons ← r.1.1.mapM (fun b => iget L b)
    .ok ((r.2, fun l => if l = level then some r.1 else st.2.1 l, st.2.2 ++ mons) : LoadSt q))
  let r ← readPair q st.1
  let top : Int := ((d : Int) - 1) * (n + 1) + 1
  check (decide (st.2.2.length = d ^ n))
  .ok { X.1 with hilbertND := rh.1, ndBasis := st.2.2, ndDict := buildDict st.2.2,
                 solvedND := fun l => if l = top then some r.1 else st.2.1 l }

end Verif
