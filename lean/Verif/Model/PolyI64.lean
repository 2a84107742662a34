import Verif.Model.Poly
import Verif.Model.Frob
import Verif.Model.NDBatch

/-!
`change_of_variables_monomial` (tools/change_of_variables_monomial.cc:17-63) with its 64-bit arithmetic: the
coefficients are `int64_t`, and a sum or product out of range is undefined behaviour.  Model/Poly has the same function
with unbounded coefficients.
-/

namespace Verif

/-- `it = m.find(k); if (it == m.end()) m[k] = c; else it->second += c;` in 64 bits
(tools/change_of_variables_monomial.cc:50-55). -/
def accum64 (m : MonMap Int) (k : IVec) (c : Int) : Res (MonMap Int) :=
  match MonMap.find? m k with
  | none => .ok (MonMap.set m k c)
  | some v => do
      let s ← i64 (v + c)
      .ok (MonMap.set m k s)

/-- The double loop (tools/change_of_variables_monomial.cc:44-58). -/
def mulMaps64 (H X : MonMap Int) : Res (MonMap Int) :=
  H.foldlM (fun acc eH =>
    X.foldlM (fun acc eX => do
      let mon ← addVec eX.1 eH.1
      let c ← i64 (eX.2 * eH.2)
      accum64 acc mon c) acc) []

/-- `monomial_extended` for variable `i` (tools/change_of_variables_monomial.cc:36-42); `power_long` does not check for
overflow. -/
def monomialExtended64 (n i : Nat) (ui vi : Int) : Res (MonMap Int) :=
  forRange (ui + 1).toNat [] (fun j m => do
    let b ← binomial ui j
    let w ← i64 (vi ^ j)
    let c ← i64 (b * w)
    pure (MonMap.set m (((List.replicate (n + 1) 0).set i (ui - j)).set n (j : Int)) c))

/-- `change_of_variables_monomial(u, v)` (tools/change_of_variables_monomial.cc:17-63) in 64 bits. -/
def changeOfVariablesMonomial64 (u v : IVec) : Res (MonMap Int) := do
  check (decide (u.length = v.length))
  let n := u.length
  forRange n [(List.replicate (n + 1) 0, 1)] (fun i H => do
    let X ← monomialExtended64 n i (u.getD i 0) (v.getD i 0)
    mulMaps64 H X)

/-- `compute_reduction_matrix_ND_poly(v)` (dr_nd/dr_nd.cc:1106-1178) computed afresh, as `redMatNDPoly`, with the
64-bit `change_of_variables_monomial`. -/
def redMatNDPoly64 {R : Type} [CommRing R] [DecidableEq R] (solve : Solver R) (N : ND R) (v : IVec) :
    Res (MonMap (CMat R)) := do
  let Ms ← redMatND solve N v
  let res ← Ms.foldlM (fun res e => do
    let mons ← changeOfVariablesMonomial64 e.1 v
    expandInto N.ndBasis.length (decide (headSum (N.n + 1) e.1 = N.n + 1)) e.2 mons res) []
  .ok (res.filter (fun e => !e.2.isZero))

end Verif
