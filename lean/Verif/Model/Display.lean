import Verif.Model.Text

/-!
`operator<<=` of tools.h:205-258, the output "more human readable and compatible with SAGE".

The version for `Mat` (tools.h:214) comes before the one for `Vec` (tools.h:227).  The call `s <<= a[i]` in its body depends on a template
parameter: it is looked up where the template is written, which finds the general version (tools.h:207) and
the one for `Mat`, and at the call only in the namespaces of the arguments, `std` and `NTL`, while the operators are in the
global one.  So a row is written by the general version, that is by `operator<<` of NTL.  GCC before version 12 also looked in the
global namespace at the call, and took the version for `Vec`.  Both are modelled.
-/

namespace Verif

/-- The elements with `sep` between them: `s <<= a[i]; if (i < length - 1) s << sep`. -/
def dispItems {α : Type} (sep : Str) (sh : α → Str) : List α → Str
  | [] => []
  | [x] => sh x
  | x :: y :: l => sh x ++ (sep ++ dispItems sep sh (y :: l))

/-- `operator<<=` for `Vec<T>` (tools.h:226-236). -/
def dispVec {α : Type} (sh : α → Str) (l : List α) : Str := '(' :: (dispItems [',', ' '] sh l ++ [')'])

/-- `operator<<=` for `Mat<T>` (tools.h:213-223), given by its rows; the rows are written by NTL. -/
def dispMat {α : Type} (sh : α → Str) (rows : List (List α)) : Str :=
  '[' :: (dispItems [',', '\n'] (showVec sh) rows ++ [']'])

/-- The same with the rows written by `operator<<=` for `Vec<T>`. -/
def dispMatOld {α : Type} (sh : α → Str) (rows : List (List α)) : Str :=
  '[' :: (dispItems [',', '\n'] (dispVec sh) rows ++ [']'])

/-- `operator<<=` for polynomials (tools.h:239-258). -/
def dispMap {R : Type} (sh : R → Str) (m : MonMap R) : Str :=
  '{' :: (dispItems [',', '\n', ' '] (fun e : IVec × R => dispVec showInt e.1 ++ (':' :: ' ' :: sh e.2)) m ++ ['}'])

end Verif
