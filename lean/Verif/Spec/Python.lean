import Verif.Model.Text

/-!
The values of the literals of Python, which SAGE reads: integers, tuples, lists and dictionaries.  Between brackets white space, also
newlines, may stand between the tokens.  `(x)` is `x` itself, `(x,)` is a tuple with one element.
-/

namespace Verif.Spec

inductive Py where
  | int (z : Int)
  | tuple (l : List Py)
  | list (l : List Py)
  | dict (l : List (Py × Py))

/-- Comma separated values up to the closing bracket; whether there was a comma. -/
def pyItems (rd : Str → Option (Py × Str)) (close : Char) : Nat → Str → Option (List Py × Bool × Str)
  | 0, _ => none
  | k + 1, s =>
      match skipWs s with
      | [] => none
      | c :: s' =>
          if c = close then some ([], false, s')
          else match rd (c :: s') with
            | none => none
            | some (v, s1) =>
                match skipWs s1 with
                | [] => none
                | d :: s2 =>
                    if d = close then some ([v], false, s2)
                    else if d = ',' then
                      match pyItems rd close k s2 with
                      | none => none
                      | some (vs, _, s3) => some (v :: vs, true, s3)
                    else none

/-- Comma separated pairs `key: value` up to the closing brace. -/
def pyPairs (rd : Str → Option (Py × Str)) : Nat → Str → Option (List (Py × Py) × Str)
  | 0, _ => none
  | k + 1, s =>
      match skipWs s with
      | [] => none
      | c :: s' =>
          if c = '}' then some ([], s')
          else match rd (c :: s') with
            | none => none
            | some (key, s1) =>
                match skipWs s1 with
                | [] => none
                | d :: s2 =>
                    if d = ':' then
                      match rd (skipWs s2) with
                      | none => none
                      | some (v, s3) =>
                          match skipWs s3 with
                          | [] => none
                          | e :: s4 =>
                              if e = '}' then some ([(key, v)], s4)
                              else if e = ',' then
                                match pyPairs rd k s4 with
                                | none => none
                                | some (vs, s5) => some ((key, v) :: vs, s5)
                              else none
                    else none

/-- One value and the rest of the text; the first argument bounds the depth of the brackets. -/
def pyVal : Nat → Str → Option (Py × Str)
  | 0, _ => none
  | k + 1, s =>
      match skipWs s with
      | '(' :: s' =>
          match pyItems (pyVal k) ')' (s'.length + 1) s' with
          | some ([v], false, s1) => some (v, s1)
          | some (vs, _, s1) => some (.tuple vs, s1)
          | none => none
      | '[' :: s' => (pyItems (pyVal k) ']' (s'.length + 1) s').map (fun r => (.list r.1, r.2.2))
      | '{' :: s' => (pyPairs (pyVal k) (s'.length + 1) s').map (fun r => (.dict r.1, r.2))
      | s' => match readInt s' with
          | .ok (z, s1) => some (.int z, s1)
          | .error _ => none

/-- The value of a whole text. -/
def pyEval (s : Str) : Option Py :=
  match pyVal (s.length + 1) s with
  | some (v, r) => if skipWs r = [] then some v else none
  | none => none

/-- The key a vector of exponents should become. -/
def pyTuple (l : List Int) : Py := .tuple (l.map .int)

end Verif.Spec
