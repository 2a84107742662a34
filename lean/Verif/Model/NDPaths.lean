import Verif.Model.ND
import Verif.Model.Paths

/-!
Model of `test_paths_ND` (dr_nd/dr_nd.cc:1574-1656).  The random choices are arguments: for every attempt the
starting exponent and, for every path, the list of directions.
-/

namespace Verif

variable {R : Type} [CommRing R] [DecidableEq R]

/-- The loop `while( sum_u > d)` (dr_nd/dr_nd.cc:1622-1645) for the directions `vs`. -/
def pathLoopND (solve : Solver R) (N : ND R) : List IVec → IVec → CMat R → Res (IVec × CMat R)
  | [], u, M => .ok (u, M)
  | v :: vs, u, M => do
      let u' ← subVec u v
      let Mred ← getReductionMatrixND solve N u' v
      let M' ← CMat.mul Mred M
      pathLoopND solve N vs u' M'

/-- One path (dr_nd/dr_nd.cc:1614-1647). -/
def pathMatrixND (solve : Solver R) (N : ND R) (u : IVec) (vs : List IVec) : Res (CMat R) := do
  let st ← pathLoopND solve N vs u (CMat.one N.ndBasis.length)
  let T ← cokernelsToBasis solve N st.1
  CMat.mul T st.2

/-- The loop over the paths of one attempt (dr_nd/dr_nd.cc:1610-1653). -/
def testPathsLoopND (solve : Solver R) (N : ND R) (u : IVec) : List (List IVec) → Option (CMat R) → Res Bool
  | [], _ => .ok true
  | vs :: rest, last => do
      let M ← pathMatrixND solve N u vs
      match last with
      | none => testPathsLoopND solve N u rest (some M)
      | some M0 => if CMat.eqv M0 M then testPathsLoopND solve N u rest (some M) else .ok false

/-- `test_paths_ND` (dr_nd/dr_nd.cc:1574-1656) for the attempts with the given starting points and paths. -/
def testPathsND (solve : Solver R) (N : ND R) : List (IVec × List (List IVec)) → Res Bool
  | [] => .ok true
  | (u, paths) :: rest => do
      let b ← testPathsLoopND solve N u paths none
      if b then testPathsND solve N rest else .ok false

end Verif
