import Verif.Model.Map
import Mathlib.Data.ZMod.Basic

/-!
The text formats: NTL's `operator<<` and `operator>>` for integers, `Vec` and `Mat`, and those of tools.h:170-203
for polynomials.  A stream is a list of characters.  NTL reports bad input by setting the fail bit; the model
stops (`abort`) instead.  Integers are unbounded.
-/

namespace Verif

abbrev Str := List Char

/-- White space of `isspace`. -/
def isWs (c : Char) : Bool :=
  c = ' ' || c = '\n' || c = '\t' || c = '\r' || c = Char.ofNat 11 || c = Char.ofNat 12

def skipWs : Str → Str
  | [] => []
  | c :: s => if isWs c then skipWs s else c :: s

def digitChar (k : Nat) : Char := Char.ofNat (48 + k)

def digitVal (c : Char) : Option Nat := if 48 ≤ c.toNat ∧ c.toNat ≤ 57 then some (c.toNat - 48) else none

/-- Decimal digits, the leading one first. -/
def showNat (n : Nat) : Str := if n < 10 then [digitChar n] else showNat (n / 10) ++ [digitChar (n % 10)]
termination_by n

def showInt : Int → Str
  | .ofNat n => showNat n
  | .negSucc n => '-' :: showNat (n + 1)

def readDigits : Nat → Str → Nat × Str
  | acc, [] => (acc, [])
  | acc, c :: s =>
      match digitVal c with
      | some k => readDigits (10 * acc + k) s
      | none => (acc, c :: s)

def readNat : Str → Res (Nat × Str)
  | [] => .error .abort
  | c :: s => if (digitVal c).isSome then .ok (readDigits 0 (c :: s)) else .error .abort

/-- Input of `int64_t` and of `ZZ`: white space, a sign, digits up to the first other character. -/
def readInt (s : Str) : Res (Int × Str) :=
  match skipWs s with
  | '-' :: s => do
      let r ← readNat s
      .ok (-(r.1 : Int), r.2)
  | s => do
      let r ← readNat s
      .ok ((r.1 : Int), r.2)

/-- Output of `ZZ_p` and `zz_p`: the representative. -/
def showMod {q : Nat} (c : ZMod q) : Str := showNat c.val

/-- Input of `ZZ_p` and `zz_p`: an integer, reduced. -/
def readMod (q : Nat) (s : Str) : Res (ZMod q × Str) := do
  let r ← readInt s
  .ok ((r.1 : ZMod q), r.2)

/-- The elements of a vector with spaces between them. -/
def showItems {α : Type} (sh : α → Str) : List α → Str
  | [] => []
  | [x] => sh x
  | x :: y :: l => sh x ++ ' ' :: showItems sh (y :: l)

/-- NTL `operator<<` for `Vec<T>`. -/
def showVec {α : Type} (sh : α → Str) (l : List α) : Str := '[' :: (showItems sh l ++ [']'])

/-- The loop of NTL's `operator>>` for `Vec<T>`. -/
def readItems {α : Type} (rd : Str → Res (α × Str)) : Nat → Str → Res (List α × Str)
  | 0, _ => .error .diverge
  | _ + 1, [] => .error .abort
  | k + 1, c :: s =>
      if c = ']' then .ok ([], s)
      else do
        let r ← rd (c :: s)
        let r' ← readItems rd k (skipWs r.2)
        .ok (r.1 :: r'.1, r'.2)

/-- NTL `operator>>` for `Vec<T>`. -/
def readVec {α : Type} (rd : Str → Res (α × Str)) (s : Str) : Res (List α × Str) :=
  match skipWs s with
  | '[' :: s => readItems rd (s.length + 1) (skipWs s)
  | _ => .error .abort

/-- NTL `operator<<` for `Mat<T>`, given by its rows: every row is followed by a newline. -/
def showMat {α : Type} (sh : α → Str) (rows : List (List α)) : Str :=
  '[' :: ((rows.flatMap (fun r => showVec sh r ++ ['\n'])) ++ [']'])

/-- `operator<<` for polynomials (tools.h:186-203): the matrix of exponents, whose number of columns is the length of
the first key, and the vector of coefficients.  For the empty map the first key is read from `cbegin()` of an
empty map.  Assigning a row of another length stops. -/
def showPoly {R : Type} (sh : R → Str) (m : MonMap R) : Res Str :=
  match m with
  | [] => .error .ub
  | (k, _) :: _ =>
      if m.all (fun e => e.1.length = k.length) then
        .ok (showMat showInt (m.map Prod.fst) ++ '\n' :: (showVec sh (m.map Prod.snd) ++ ['\n']))
      else .error .abort

/-- Inserting keys into an empty map compares every key after the first with keys already present; the first of
them stands for all. -/
def checkKeys : List IVec → Res Unit
  | [] => .ok ()
  | k :: ks => ks.foldlM (fun _ k' => do
      let _ ← ltVec k' k
      .ok ()) ()

/-- `operator>>` for polynomials (tools.h:170-183): two vectors, inserted into a map. -/
def readPoly {R : Type} (rd : Str → Res (R × Str)) (s : Str) : Res (MonMap R × Str) := do
  let ms ← readVec (readVec readInt) s
  let cs ← readVec rd ms.2
  check (decide (ms.1.length = cs.1.length))
  checkKeys ms.1
  .ok (MonMap.setAll [] (ms.1.zip cs.1), cs.2)

end Verif
