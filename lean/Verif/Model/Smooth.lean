import Mathlib.Algebra.Field.ZMod
import Verif.Model.ND
import Verif.Model.Poly

/-!
Model of `isSmooth` (`dr/isSmooth.cc`), `isND` and `find_change_of_variables` (`dr_nd/dr_nd.cc`) and
`random_SL_matrix` (`matrix/random_SL_matric.cc`).

`zz_p` is `ZMod p`; `ZZ_p` is `ZMod q`, `q` being the modulus in force when the function is called.
Ranks and determinants are computed by NTL and FLINT and are parameters.
-/

namespace Verif

/-- `nmod_mat_lu` with `rank_check = false` or `gauss`, both returning the rank, and `determinant`. -/
structure RankDet (F : Type) where
  rank : CMat F → Nat
  det : CMat F → F

/-- The fields of `D` that `isSmooth` and `isND` fill: `n`, `d` from the first term, `f` with the
representatives `rep(c)` of the coefficients, and the monomial lists with their reverse lookup
(dr/isSmooth.cc:9-33; dr_nd/dr_nd.cc:1662-1686).  `begin()` of an empty map is dereferenced. -/
def smoothObj {p : Nat} (q : Nat) (f : MonMap (ZMod p)) : Res (DR (ZMod q)) :=
  match f with
  | [] => .error .ub
  | (k, _) :: _ =>
      let deg := sumVec k
      if k.length = 0 ∨ deg < 0 then .error .ub
      else do
        let n := k.length - 1
        let d := deg.toNat
        let tl ← tupleTables n d
        .ok ⟨n, d, f.map (fun e => (e.1, (e.2.val : ZMod q))), tl, tl.map buildDict, [], []⟩

/-- `M_zz_p[i][j] = conv<zz_p>(rep(M[i][j]))` (dr/isSmooth.cc:37-45; dr_nd/dr_nd.cc:1690-1698). -/
def modpMat (p : Nat) {q : Nat} (M : CMat (ZMod q)) : CMat (ZMod p) :=
  CMat.mk' M.rows M.cols (fun i j => ((M.e i j).val : ZMod p))

/-- `isSmooth(f)` (dr/isSmooth.cc:6-57). -/
def isSmooth {p : Nat} (la : RankDet (ZMod p)) (q : Nat) (f : MonMap (ZMod p)) : Res Bool := do
  let D ← smoothObj q f
  let M ← matrixJ D D.topLevel
  pure (decide (M.rows = la.rank (modpMat p M)))

/-- `isND(f)` (dr_nd/dr_nd.cc:1659-1710). -/
def isND {p : Nat} (la : RankDet (ZMod p)) (q : Nat) (f : MonMap (ZMod p)) : Res Bool := do
  let D ← smoothObj q f
  let M ← matrixND D D.topND
  pure (decide (M.rows = la.rank (modpMat p M)))

/-! ### random_SL_matric.cc -/

/-- The outcomes of the successive calls of `random_zz_p()` and of `RandomBnd`. -/
structure Rnd (F : Type) where
  zz : Nat → F
  bnd : Nat → Nat

/-- How many calls of each have been made. -/
structure RndPos where
  zz : Nat
  bnd : Nat

/-- The loop drawing matrices until one has full rank (matrix/random_SL_matric.cc:22-34); `t` bounds
the number of passes, `none` means the loop is still running after them. -/
def slLoop {F : Type} [Zero F] (la : RankDet F) (rnd : Rnd F) (n : Nat) : Nat → Nat → Option (CMat F × Nat)
  | 0, _ => none
  | t + 1, pos =>
      let M := CMat.mk' n n (fun i j => rnd.zz (pos + (i * n + j)))
      if n = la.rank M then some (M, pos + n * n) else slLoop la rnd n t (pos + n * n)

/-- `random_SL_matrix(n)` (matrix/random_SL_matric.cc:12-43).  `RandomBnd(n)` is a number below `n`; `inv(0)`
stops. -/
def randomSL {F : Type} [Field F] [DecidableEq F] (la : RankDet F) (rnd : Rnd F) (n t : Nat) (pos : RndPos) :
    Res (Option (CMat F × RndPos)) :=
  match slLoop la rnd n t pos.zz with
  | none => .ok none
  | some (M, zz) => do
      let det := la.det M
      let row := rnd.bnd pos.bnd % n
      if det = 0 then .error .abort
      else if n ≤ row then .error .ub
      else
        let result : CMat F := ⟨n, n, fun i j => if i = row then det⁻¹ * M.e i j else M.e i j⟩
        check (decide (la.det result = 1))
        .ok (some (result, ⟨zz, pos.bnd + 1⟩))

/-! ### find_change_of_variables -/

/-- The loop of `find_change_of_variables` (dr_nd/dr_nd.cc:1722-1729) with `k` passes left; `tries` counts
the passes made. -/
def fcvLoop {p : Nat} [Fact p.Prime] (la : RankDet (ZMod p)) (q : Nat) (rnd : Rnd (ZMod p)) (t : Nat)
    (f : MonMap (ZMod p)) (n : Nat) :
    Nat → RndPos → CMat (ZMod p) → Bool → Nat → Res (Option (CMat (ZMod p) × Bool × Nat))
  | 0, _, M, notND, tries => .ok (some (M, notND, tries))
  | k + 1, pos, M, notND, tries =>
      if notND then do
        match ← randomSL la rnd n t pos with
        | none => .ok none
        | some (M', pos') => do
            let g ← changeOfVariables f M'
            let nd ← isND la q g
            fcvLoop la q rnd t f n k pos' M' (!nd) (tries + 1)
      else .ok (some (M, notND, tries))

/-- `find_change_of_variables(f, N)` (dr_nd/dr_nd.cc:1713-1736), together with the number of random matrices
tried; `none` when a call of `random_SL_matrix` is still running after `t` passes of its loop. -/
def findChangeOfVariables {p : Nat} [Fact p.Prime] (la : RankDet (ZMod p)) (q : Nat) (rnd : Rnd (ZMod p)) (t : Nat)
    (f : MonMap (ZMod p)) (N : Int) : Res (Option (CMat (ZMod p) × Nat)) :=
  match f with
  | [] => .error .ub
  | (k, _) :: _ => do
      let n := k.length
      let nd ← isND la q f
      match ← fcvLoop la q rnd t f n N.toNat ⟨0, 0⟩ (CMat.mk' n n (fun i j => if i = j then 1 else 0)) (!nd) 0 with
      | none => .ok none
      | some (M, notND, tries) =>
          .ok (some (if notND then CMat.mk' M.rows M.cols (fun _ _ => 0) else M, tries))

end Verif
