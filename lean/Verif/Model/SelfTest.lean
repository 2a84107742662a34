import Verif.Model.Frob
import Verif.Model.NDPaths

/-!
Model of the self tests `test_monomial_to_basis_J` (dr/test_monomial_to_basis_J.cc) and
`test_monomial_to_basis_ND` (dr_nd/dr_nd.cc:1503-1571), which are the same but for the function tested.
-/

namespace Verif

section

variable {R : Type} [CommRing R] [DecidableEq R]

/-- A loop over `i, i+1, ...`, `cnt` passes, that returns `false` from the function at the first `false`. -/
def allRange (f : Nat → Res Bool) : Nat → Nat → Res Bool
  | 0, _ => .ok true
  | cnt + 1, i => do
      let b ← f i
      if b then allRange f cnt (i + 1) else .ok false

/-- `fact = 1; for (k = 1; k < m; k++) fact *= k;` (dr/test_monomial_to_basis_J.cc:54-58), in `int64_t`. -/
def factI64 (m : Int) : Res Int := forRange (m - 1).toNat 1 (fun k fact => i64 (fact * ((k : Int) + 1)))

/-- The loop over the terms of `fpow[i]` (dr/test_monomial_to_basis_J.cc:63-69; dr_nd/dr_nd.cc:1554-1560). -/
def selfTestSum (toBasis : IVec → Res (CVec R)) (len : Nat) (b : IVec) (fp : MonMap R) : Res (CVec R) :=
  fp.foldlM (fun v e => do
    let u ← addVec e.1 b
    let h ← toBasis (u.map (fun x => x + 1))
    v.add (CVec.mk' h.len (fun k => e.2 * h.e k))) (CVec.mk' len (fun _ => 0))

/-- One pass of the loops over `i` and `j` (dr/test_monomial_to_basis_J.cc:49-76; dr_nd/dr_nd.cc:1540-1567). -/
def selfTestOne (toBasis : IVec → Res (CVec R)) (D : DR R) (fpow : List (MonMap R)) (i j : Nat) : Res Bool := do
  let b ← aget D.basis j
  let m : Int := (sumVec b + (D.n + 1)) / D.d + i
  let fact ← factI64 m
  let fp ← aget fpow i
  let v ← selfTestSum toBasis D.basis.length b fp
  .ok ((List.range D.basis.length).all (fun k => if k = j then decide (v.e k = (fact : R)) else decide (v.e k = 0)))

/-- `test_monomial_to_basis(N)` for `N >= 0` (dr/test_monomial_to_basis_J.cc:11-80; dr_nd/dr_nd.cc:1503-1571).  The
powers of `f` are computed as in `compute_fpow` (lines 31-43). -/
def selfTest (toBasis : IVec → Res (CVec R)) (D : DR R) (N : Nat) : Res Bool := do
  let fpow ← fpowLoop D.f N (fpowStart D.n)
  allRange (fun i => allRange (fun j => selfTestOne toBasis D fpow i j) D.basis.length 0) (N + 1) 0

/-- `test_monomial_to_basis_J(N)`. -/
def selfTestJ (solve : Solver R) (D : DR R) (N : Nat) : Res Bool := selfTest (monomialToBasisJ solve D) D N

/-- `test_monomial_to_basis_ND(N)`. -/
def selfTestND (solve : Solver R) (D : ND R) (N : Nat) : Res Bool := selfTest (monomialToBasisND solve D) D.toDR N

end

end Verif
