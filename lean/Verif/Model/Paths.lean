import Verif.Model.DeRham

/-!
Model of the path test of `de_Rham_local` (`dr/test_paths_J.cc`).  The random choices are an input:
the list of directions `v` taken.
-/

namespace Verif

/-- The loop `while( sum_u > n)` (dr/test_paths_J.cc:58-87) for the directions `vs`: the state is `u`
and the product of the reduction matrices so far. -/
def pathLoopJ {R : Type} [CommRing R] (solve : Solver R) (D : DR R) : List IVec → IVec → CMat R →
    Res (IVec × CMat R)
  | [], u, M => .ok (u, M)
  | v :: vs, u, M => do
      let u' ← subVec u v
      let Mred ← getReductionMatrixJ solve D u' v
      let M' ← CMat.mul Mred M
      pathLoopJ solve D vs u' M'

/-- One path (dr/test_paths_J.cc:52-92): reductions along `vs`, inclusion, final reduction. -/
def pathMatrixJ {R : Type} [CommRing R] (solve : Solver R) (D : DR R) (u : IVec) (vs : List IVec) :
    Res (CMat R) := do
  let listG ← D.list ((D.d : Int) * D.n - D.n)
  let st ← pathLoopJ solve D vs u (CMat.one listG.length)
  let Minc ← inclMatJ D st.1
  let M ← CMat.mul Minc st.2
  let Mfin ← finalMatJ solve D D.n
  CMat.mul Mfin M

/-- NTL's `operator==` on matrices. -/
def CMat.eqv {R : Type} [DecidableEq R] (A B : CMat R) : Bool :=
  decide (A.rows = B.rows) && decide (A.cols = B.cols) &&
    (List.range A.rows).all (fun i => (List.range A.cols).all (fun j => decide (A.e i j = B.e i j)))

/-- The loop over the paths of one attempt (dr/test_paths_J.cc:48-97): `last` is the matrix of the
path before. -/
def testPathsLoop {R : Type} [CommRing R] [DecidableEq R] (solve : Solver R) (D : DR R) (u : IVec) :
    List (List IVec) → Option (CMat R) → Res Bool
  | [], _ => .ok true
  | vs :: rest, last => do
      let M ← pathMatrixJ solve D u vs
      match last with
      | none => testPathsLoop solve D u rest (some M)
      | some M0 => if CMat.eqv M0 M then testPathsLoop solve D u rest (some M) else .ok false

/-- `test_paths_J` (dr/test_paths_J.cc:10-100) for the attempts with the given starting points and
paths. -/
def testPathsJ {R : Type} [CommRing R] [DecidableEq R] (solve : Solver R) (D : DR R) :
    List (IVec × List (List IVec)) → Res Bool
  | [] => .ok true
  | (u, paths) :: rest => do
      let b ← testPathsLoop solve D u paths none
      if b then testPathsJ solve D rest else .ok false

end Verif
