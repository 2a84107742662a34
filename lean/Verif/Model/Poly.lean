import Verif.Model.Map
import Verif.Model.Tools
import Verif.Model.Matrix

/-!
Model of the polynomial substitutions of `tools.h` and `tools/change_of_variables_monomial.cc`.
Polynomials are `MonMap R`, as in the code.
-/

namespace Verif

/-- `it = m.find(k); if (it == m.end()) m[k] = c; else it->second += c;`
(tools.h:99-103, 111-115; tools/change_of_variables_monomial.cc:50-55). -/
def MonMap.accum {R : Type} [Add R] (m : MonMap R) (k : IVec) (c : R) : MonMap R :=
  match MonMap.find? m k with
  | none => MonMap.set m k c
  | some v => MonMap.set m k (v + c)

/-- The double loop over the entries of `H` and `X` that accumulates the products
`itX->second * itH->second` at `itX->first + itH->first` into an empty `Hnew`
(tools.h:95-105; tools/change_of_variables_monomial.cc:44-58, where the factors are swapped). -/
def mulMaps {R : Type} [Add R] [Mul R] (H X : MonMap R) : Res (MonMap R) :=
  H.foldlM (fun acc eH =>
    X.foldlM (fun acc eX => do
      let mon ← addVec eX.1 eH.1
      pure (MonMap.accum acc mon (eX.2 * eH.2))) acc) []

/-- `X[i]`, the exponent vector of the variable `i` among `n` (tools.h:71-76). -/
def unitVec (n i : Nat) : IVec := (List.replicate n 0).set i 1

/-- `Mvec[i]` (tools.h:80-83): the linear form of row `i`. -/
def rowForm {R : Type} (n : Nat) (M : CMat R) (i : Nat) : MonMap R :=
  (List.range n).foldl (fun m j => MonMap.set m (unitVec n j) (M.e i j)) []

/-- Multiply `H` by `X` `j` times: `for (j = 0; j < e; ++j) { H = H * X }` (tools.h:94-107). -/
def mulPow {R : Type} [Add R] [Mul R] (H X : MonMap R) : Nat → Res (MonMap R)
  | 0 => .ok H
  | j + 1 => do
      let H' ← mulPow H X j
      mulMaps H' X

/-- The image of one term `c * x^k` (tools.h:86-108). -/
def substTerm {R : Type} [Add R] [Mul R] (n : Nat) (M : CMat R) (k : IVec) (c : R) :
    Res (MonMap R) := do
  check (decide (k.length = n))
  forRange n [(List.replicate n 0, c)] (fun i H => mulPow H (rowForm n M i) (k.getD i 0).toNat)

/-- `change_of_variables(f, M)` (tools.h:55-119). -/
def changeOfVariables {R : Type} [Add R] [Mul R] (f : MonMap R) (M : CMat R) :
    Res (MonMap R) := do
  check (decide (M.rows = M.cols))
  f.foldlM (fun result e => do
    let H ← substTerm M.rows M e.1 e.2
    pure (H.foldl (fun result eH => MonMap.accum result eH.1 eH.2) result)) []

/-- `monomial_extended` for variable `i` (tools/change_of_variables_monomial.cc:36-42). -/
def monomialExtended (n i : Nat) (ui vi : Int) : Res (MonMap Int) :=
  forRange (ui + 1).toNat [] (fun j m => do
    let b ← binomial ui j
    pure (MonMap.set m (((List.replicate (n + 1) 0).set i (ui - j)).set n (j : Int)) (b * vi ^ j)))

/-- `change_of_variables_monomial(u, v)` (tools/change_of_variables_monomial.cc:17-63).  The
products are unbounded integers here (Model/PolyI64 has the 64-bit
arithmetic; `binomial` keeps its assertion). -/
def changeOfVariablesMonomial (u v : IVec) : Res (MonMap Int) := do
  check (decide (u.length = v.length))
  let n := u.length
  forRange n [(List.replicate (n + 1) 0, 1)] (fun i H => do
    let X ← monomialExtended n i (u.getD i 0) (v.getD i 0)
    mulMaps H X)

end Verif
