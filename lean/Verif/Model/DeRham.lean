import Verif.Model.Map
import Verif.Model.Tools
import Verif.Model.Charpoly
import Verif.Model.SolveSystem

/-!
Model of `de_Rham_local` (`dr.h`, `dr/*.cc`): the relation matrices, the reduction matrices and the
final reduction.  Every function here computes its result afresh; the dictionaries in which the code
keeps results are modelled in `Verif/Model/Cache.lean`.

`ZZ_p` is a commutative ring `R`.  `solve_system_padic` is a parameter (`Solver`); its model and
contract are in `Verif/Model/SolveSystem.lean` and property C20.
-/

namespace Verif

/-- An NTL `Vec<T>`: length and entries (entries outside are kept 0). -/
@[ext] structure CVec (R : Type) where
  len : Nat
  e : Nat → R

/-- `SetLength(n)` followed by assigning every entry. -/
def CVec.mk' {R : Type} [Zero R] (n : Nat) (f : Nat → R) : CVec R :=
  ⟨n, fun i => if i < n then f i else 0⟩

/-- NTL's `mul(result, M, G)`; a length mismatch is an NTL error. -/
def CMat.mulVec {R : Type} [Zero R] [Add R] [Mul R] (M : CMat R) (G : CVec R) : Res (CVec R) :=
  if M.cols = G.len then .ok (CVec.mk' M.rows (fun i => sumLoop M.cols (fun k => M.e i k * G.e k)))
  else .error .abort

/-- Read `M[i][j]`. -/
def CMat.at {R : Type} (M : CMat R) (i j : Nat) : Res R :=
  if i < M.rows ∧ j < M.cols then .ok (M.e i j) else .error .ub

/-- Write `M[i][j] = x`. -/
def CMat.put {R : Type} (M : CMat R) (i j : Nat) (x : R) : Res (CMat R) :=
  if i < M.rows ∧ j < M.cols then
    .ok ⟨M.rows, M.cols, fun a b => if a = i ∧ b = j then x else M.e a b⟩
  else .error .ub

/-- `solve_system_padic(B, U, T, precision)`. -/
abbrev Solver (R : Type) := CMat R → Res (List Nat × CMat R)

/-- The fields of `de_Rham_local` (dr.h:30-62) that the constructor sets. -/
structure DR (R : Type) where
  n : Nat
  d : Nat
  f : MonMap R
  tupleList : List (List IVec)
  tupleDict : List (MonMap Nat)
  basis : List IVec
  basisDict : MonMap Nat

/-- Index a `Vec` with a signed index. -/
def iget {α : Type} (l : List α) (i : Int) : Res α := if i < 0 then .error .ub else aget l i.toNat

/-- `tuple_list[l]`. -/
def DR.list {R : Type} (D : DR R) (l : Int) : Res (List IVec) := iget D.tupleList l

/-- `tuple_dict[l]`. -/
def DR.dict {R : Type} (D : DR R) (l : Int) : Res (MonMap Nat) := iget D.tupleDict l

/-- `dict[k]`.  The code would insert a missing key with value 0 and go on with index 0; the model
reports a failure instead, so a theorem that a function returns also says no lookup misses. -/
def look (m : MonMap Nat) (k : IVec) : Res Nat :=
  match MonMap.find? m k with
  | some i => .ok i
  | none => .error .ub

/-! ### matrix_J.cc -/

/-- The body of the loops of `matrix_J` (dr/matrix_J.cc:46-52): one column, over the terms of `f`. -/
def matrixJCol {R : Type} [CommRing R] (f : MonMap R) (dictL : MonMap Nat) (t : IVec) (i col : Nat)
    (M : CMat R) : Res (CMat R) :=
  f.foldlM (fun M e =>
    if 0 < e.1.getD i 0 then do
      let df ← diffVec e.1 i
      let mon ← addVec df t
      let row ← look dictL mon
      M.put row col ((e.1.getD i 0 : Int) * e.2)
    else .ok M) M

/-- `matrix_J(result, l)` (dr/matrix_J.cc:11-55). -/
def matrixJ {R : Type} [CommRing R] (D : DR R) (l : Int) : Res (CMat R) := do
  if l < (D.d : Int) - 1 then
    let L ← D.list l
    pure (CMat.mk' L.length 0 (fun _ _ => 0))
  else
    let L ← D.list l
    let S ← D.list (l - (D.d - 1))
    let dictL ← D.dict l
    forRange (D.n + 1) (CMat.mk' L.length ((D.n + 1) * S.length) (fun _ _ => 0)) (fun i M =>
      forRange S.length M (fun j M =>
        matrixJCol D.f dictL (S.getD j []) i (i * S.length + j) M))

/-- The pair computed by `get_solve_J(level)` (dr/get_solve_J.cc:10-36). -/
def solveJ {R : Type} [CommRing R] (solve : Solver R) (D : DR R) (l : Int) :
    Res (List Nat × CMat R) := do
  let M ← matrixJ D l
  solve M

/-! ### compute_reduction_matrix_J.cc -/

/-- The loop that lowers every entry of `w`, giving up at an entry `<= 0`
(dr/compute_reduction_matrix_J.cc:70-80; dr/compute_inclusion_matrix_J.cc:29-39). -/
def decAll (w : IVec) : Option IVec :=
  if w.all (fun x => decide (0 < x)) then some (w.map (· - 1)) else none

/-- `acc[m][row] += x` for one column of the matrices. -/
def accAt {R : Type} [Add R] (acc : Nat → Nat → R) (m row : Nat) (x : R) : Nat → Nat → R :=
  fun a b => if a = m ∧ b = row then acc a b + x else acc a b

/-- `one_minus_ei` with entry `i` lowered (dr/compute_reduction_matrix_J.cc:64-67, 95). -/
def oneMinusE (n i : Nat) : IVec := (List.replicate (n + 1) 1).set i 0

/-- The degree `(d-2)(n+1)+1` in which all monomials are in the Jacobian ideal. -/
def DR.topLevel {R : Type} (D : DR R) : Int := ((D.d : Int) - 2) * (D.n + 1) + 1

/-- One pass of the (parallel) loop over the columns (dr/compute_reduction_matrix_J.cc:59-108): the
column `k` of the `n+2` matrices.  Different passes write different columns. -/
def redColJ {R : Type} [CommRing R] (D : DR R) (top : CMat R) (listG listF : List IVec)
    (dictG dictW : MonMap Nat) (v : IVec) (k : Nat) : Res (Nat → Nat → R) := do
  let w ← addVec (listG.getD k []) v
  match decAll w with
  | none => .ok (fun _ _ => 0)
  | some w => do
      check (decide (sumVec w = (D.d : Int) * D.n - 2 * D.n + D.d - 1))
      let cw ← look dictW w
      forRange (D.n + 1) (fun _ _ => 0) (fun i acc =>
        forRange listF.length acc (fun s acc => do
          let t ← addVec (listF.getD s []) (oneMinusE D.n i)
          let row ← look dictG t
          let F ← top.at (i * listF.length + s) cw
          let acc := accAt acc 0 row ((((listF.getD s []).getD i 0 : Int) : R) * F)
          pure (accAt acc (i + 1) row F)))

/-- `compute_reduction_matrix_J(v)` (dr/compute_reduction_matrix_J.cc:13-111) from `solve_top`: the
`n+2` matrices. -/
def redMatJ {R : Type} [CommRing R] (D : DR R) (top : CMat R) (v : IVec) : Res (Nat → CMat R) := do
  let listG ← D.list ((D.d : Int) * D.n - D.n)
  let dictG ← D.dict ((D.d : Int) * D.n - D.n)
  let dictW ← D.dict ((D.d : Int) * D.n - D.n + D.d - (D.n + 1))
  let listF ← D.list ((D.d : Int) * D.n - 2 * D.n)
  let M ← forRange listG.length ((fun _ _ _ => 0) : Nat → Nat → Nat → R) (fun k M => do
    let col ← redColJ D top listG listF dictG dictW v k
    pure (fun i r c => if c = k then col i r else M i r c))
  pure (fun i => CMat.mk' listG.length listG.length (M i))

/-- The loop checking `u`, `v` at the start of the reduction functions
(dr/get_reduction_matrix_J.cc:13-19, dr/reduce_vector_J.cc:11-18, ...). -/
def checkUV {R : Type} (D : DR R) (u v : IVec) : Res Unit := do
  let sum ← forRange (D.n + 1) (0 : Int) (fun i sum => do
    let ui ← aget u i
    let vi ← aget v i
    check (decide (ui = 0 ∨ 0 < vi))
    pure (sum + vi))
  check (decide (sum = D.d))

/-- `M[0] + Σ u_i M[i+1]`. -/
def evalRed {R : Type} [CommRing R] (n : Nat) (Ms : Nat → CMat R) (u : IVec) : CMat R :=
  CMat.mk' (Ms 0).rows (Ms 0).cols (fun r c =>
    (Ms 0).e r c + sumLoop (n + 1) (fun i => ((u.getD i 0 : Int) : R) * (Ms (i + 1)).e r c))

/-- `get_reduction_matrix_J(u, v)` (dr/get_reduction_matrix_J.cc:9-31), with the matrices for `v`
computed afresh. -/
def getReductionMatrixJ {R : Type} [CommRing R] (solve : Solver R) (D : DR R) (u v : IVec) :
    Res (CMat R) := do
  checkUV D u v
  let top ← solveJ solve D D.topLevel
  let Ms ← redMatJ D top.2 v
  pure (evalRed D.n Ms u)

/-- `reduce_vector_J(u, v, G)` (dr/reduce_vector_J.cc:7-29). -/
def reduceVectorJ {R : Type} [CommRing R] (solve : Solver R) (D : DR R) (u v : IVec) (G : CVec R) :
    Res (CVec R) := do
  checkUV D u v
  let top ← solveJ solve D D.topLevel
  let Ms ← redMatJ D top.2 v
  let G0 ← (Ms 0).mulVec G
  forRange (D.n + 1) G0 (fun i res => do
    let Gi ← (Ms (i + 1)).mulVec G
    if Gi.len = res.len then
      pure (CVec.mk' res.len (fun r => res.e r + ((u.getD i 0 : Int) : R) * Gi.e r))
    else .error .abort)

/-! ### compute_inclusion_matrix_J.cc -/

/-- `get_inclusion_matrix_J(u)` computed afresh (dr/get_inclusion_matrix_J.cc:14-34,
dr/compute_inclusion_matrix_J.cc:11-43). -/
def inclMatJ {R : Type} [CommRing R] (D : DR R) (u : IVec) : Res (CMat R) := do
  check (decide (sumVec u = D.n))
  let listG ← D.list ((D.d : Int) * D.n - D.n)
  let dictH ← D.dict ((D.d : Int) * D.n - D.n - 1)
  forRange listG.length (CMat.mk' dictH.length listG.length (fun _ _ => 0)) (fun k M => do
    let w ← addVec (listG.getD k []) u
    match decAll w with
    | none => .ok M
    | some w => do
        let row ← look dictH w
        M.put row k 1)

/-! ### compute_final_reduction_matrix_J.cc -/

/-- The first matrix, `k == 1` (dr/compute_final_reduction_matrix_J.cc:22-33). -/
def finalMat1 {R : Type} [CommRing R] (D : DR R) : Res (CMat R) := do
  let listG ← D.list ((D.d : Int) - (D.n + 1))
  pure (CMat.mk' D.basis.length listG.length (fun i j =>
    if listG.getD j [] = D.basis.getD i [] then 1 else 0))

/-- `H` for one column (dr/compute_final_reduction_matrix_J.cc:77-97): the sum of the derivatives of
the `F_i`, as a coefficient vector. -/
def finalH {R : Type} [CommRing R] (n : Nat) (listF : List IVec) (dictH : MonMap Nat) (U : CMat R)
    (k : Nat) : Res (Nat → R) :=
  forRange (n + 1) (fun _ => (0 : R)) (fun i H =>
    forRange listF.length H (fun s H =>
      if 0 < (listF.getD s []).getD i 0 then do
        let df ← diffVec (listF.getD s []) i
        let row ← look dictH df
        let F ← U.at (i * listF.length + s) k
        pure (upd H row (H row + (((listF.getD s []).getD i 0 : Int) : R) * F))
      else .ok H))

/-- One column of the matrix for `k >= 2` (dr/compute_final_reduction_matrix_J.cc:75-104). -/
def finalCol {R : Type} [CommRing R] (D : DR R) (Mlow : CMat R) (listG listF listH : List IVec)
    (dictH : MonMap Nat) (B : List Nat) (U : CMat R) (fact : Int) (k : Nat) : Res (CVec R) := do
  let H ← finalH D.n listF dictH U k
  let row ← Mlow.mulVec (CVec.mk' listH.length H)
  forRange B.length row (fun i row => do
    let b ← aget B i
    let t ← aget listG b
    let j ← look D.basisDict t
    let F ← U.at ((D.n + 1) * listF.length + i) k
    if j < row.len then pure ⟨row.len, upd row.e j (row.e j + (fact : R) * F)⟩ else .error .ub)

/-- The matrix for `k >= 2` from the one for `k - 1`
(dr/compute_final_reduction_matrix_J.cc:34-106). -/
def finalMatStep {R : Type} [CommRing R] (solve : Solver R) (D : DR R) (Mlow : CMat R) (k : Nat) :
    Res (CMat R) := do
  let degG : Int := (k : Int) * D.d - (D.n + 1)
  let listG ← D.list degG
  let listF ← D.list (degG - (D.d - 1))
  let listH ← D.list (degG - D.d)
  let dictH ← D.dict (degG - D.d)
  let BU ← solveJ solve D degG
  let fact := prodFrom 1 (k - 1)
  let Mt ← forRange listG.length ((fun _ _ => 0) : Nat → Nat → R) (fun c Mt => do
    let col ← finalCol D Mlow listG listF listH dictH BU.1 BU.2 fact c
    pure (upd Mt c col.e))
  pure (CMat.mk' D.basis.length listG.length (fun i j => Mt j i))

/-- `get_final_reduction_matrix_J(k)` computed afresh (dr/get_final_reduction_matrix_J.cc:10-27): the
matrices for `1..k` one after the other. -/
def finalMatJ {R : Type} [CommRing R] (solve : Solver R) (D : DR R) : Nat → Res (CMat R)
  | 0 => .error .assertFail
  | 1 => do
      check (decide (1 ≤ D.n))
      finalMat1 D
  | k + 2 => do
      check (decide (k + 2 ≤ D.n))
      let Mlow ← finalMatJ solve D (k + 1)
      finalMatStep solve D Mlow (k + 2)

/-! ### monomial_to_basis_J.cc -/

/-- The inner `for` of the direction search: raise the first entry of `v` that is below a positive
entry of `w` (dr/monomial_to_basis_J.cc:58-66; hypersurface/frob_J_ZZ.cc). -/
def bumpFirst : IVec → IVec → Option IVec
  | x :: w, y :: v => if 0 < x ∧ y < x then some ((y + 1) :: v) else (bumpFirst w v).map (y :: ·)
  | _, _ => none

/-- `while (sum < d)` with `k = d - sum` (dr/monomial_to_basis_J.cc:56-67).  When no entry can be
raised the loop never ends. -/
def dirLoop (w : IVec) : Nat → IVec → Res IVec
  | 0, v => .ok v
  | k + 1, v =>
      match bumpFirst w v with
      | none => .error .diverge
      | some v' => dirLoop w k v'

/-- The direction `v` chosen for `w` (dr/monomial_to_basis_J.cc:43-67). -/
def direction (d : Nat) (w : IVec) : Res IVec :=
  let v := w.map (fun x => if 0 < x then (1 : Int) else 0)
  dirLoop w (d - sumVec v).toNat v

/-- The unit vector of length `len` at position `k`. -/
def CVec.unit {R : Type} [Zero R] [One R] (len k : Nat) : CVec R :=
  CVec.mk' len (fun i => if i = k then 1 else 0)

/-- The loop `for (e = m; e > n; e--)` (dr/monomial_to_basis_J.cc:41-75), `cnt = m - n` passes; the
state is `(w, G)`. -/
def mtbLoop {R : Type} [CommRing R] (solve : Solver R) (D : DR R) : Nat → IVec → CVec R →
    Res (IVec × CVec R)
  | 0, w, G => .ok (w, G)
  | cnt + 1, w, G => do
      let v ← direction D.d w
      let w' ← subVec w v
      let M ← getReductionMatrixJ solve D w' v
      let G' ← M.mulVec G
      mtbLoop solve D cnt w' G'

/-- `monomial_to_basis_J(u)` (dr/monomial_to_basis_J.cc:11-112). -/
def monomialToBasisJ {R : Type} [CommRing R] (solve : Solver R) (D : DR R) (u : IVec) :
    Res (CVec R) := do
  check (decide (u.length = D.n + 1))
  check (u.all (fun x => decide (0 < x)))
  let sum := sumVec u
  if D.d = 0 then .error .ub
  else
    check (decide (sum % D.d = 0))
    let m := sum / D.d
    if (D.n : Int) < m then
      let listG ← D.list ((D.d : Int) * D.n - D.n)
      let dictG ← D.dict ((D.d : Int) * D.n - D.n)
      let w ← tweak u ((D.d : Int) * D.n - D.n)
      let s ← subVec u w
      let k ← look dictG s
      let st ← mtbLoop solve D (m - D.n).toNat w (CVec.unit listG.length k)
      check (decide (sumVec st.1 = D.n))
      let M ← inclMatJ D st.1
      let G ← M.mulVec st.2
      let M ← finalMatJ solve D D.n
      M.mulVec G
    else
      let L ← D.list (sum - (D.n + 1))
      let dict ← D.dict (sum - (D.n + 1))
      let k ← look dict (u.map (· - 1))
      let M ← finalMatJ solve D m.toNat
      M.mulVec (CVec.unit L.length k)

/-! ### init.cc -/

/-- Product of polynomials given by their coefficients. -/
def polyMul (a b : Nat → Int) : Nat → Int := fun k => sumLoop (k + 1) (fun j => a j * b (k - j))

/-- The coefficients of `(1 + x + ... + x^(d-2))^(n+1)` (dr/init.cc:63-72). -/
def hilbertJ (d n : Nat) : Nat → Int :=
  Nat.rec (fun k => if k = 0 then 1 else 0)
    (fun _ H => polyMul H (fun k => if k + 1 < d then 1 else 0)) (n + 1)

/-- The loops filling `tuple_list` (dr/init.cc:49-58). -/
def tupleTables (n d : Nat) : Res (List (List IVec)) :=
  (List.range ((n + 1) * d + 1)).mapM (fun l : Nat => tupleListGenerator (l : Int) (n + 1))

/-- The loop appending the basis monomials (dr/init.cc:85-94). -/
def initBasis {R : Type} [CommRing R] (solve : Solver R) (D : DR R) : Res (List IVec) :=
  forRange D.n [] (fun i acc => do
    let level : Int := ((i : Int) + 1) * D.d - (D.n + 1)
    let BU ← solveJ solve D level
    let L ← D.list level
    if level < 0 then .error .ub
    else
      check (decide (hilbertJ D.d D.n level.toNat = BU.1.length))
      let mons ← BU.1.mapM (fun b => aget L b)
      pure (acc ++ mons))

/-- `init(p, precision, f, ...)` (dr/init.cc:7-106).  `d` is the degree of the first term.  An empty
`f` dereferences `begin()` of an empty map; exponent vectors of length 0 are not modelled further. -/
def DR.init {R : Type} [CommRing R] (solve : Solver R) (p : Nat) (f : MonMap R) : Res (DR R) :=
  match f with
  | [] => .error .ub
  | (k, _) :: _ => do
      let deg := sumVec k
      if k.length = 0 ∨ deg < 0 ∨ p = 0 then .error .ub
      else
        let n := k.length - 1
        let d := deg.toNat
        check (decide (n < d))
        check (decide (d % p ≠ 0))
        let tl ← tupleTables n d
        let D0 : DR R := ⟨n, d, f, tl, tl.map buildDict, [], []⟩
        let top ← solveJ solve D0 D0.topLevel
        check (decide (top.1.length = 0))
        let basis ← initBasis solve D0
        pure { D0 with basis := basis, basisDict := buildDict basis }

end Verif
