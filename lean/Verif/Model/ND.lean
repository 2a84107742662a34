import Verif.Model.DeRham
import Verif.Model.Frob

/-!
Model of `de_Rham_non_degenerate_local` (`dr_nd.h`, `dr_nd/dr_nd.cc`): relation matrices for
`x_i ∂_i f`, the reduction matrices as polynomials in `u`, and the way back to the cohomology basis.
As in `Verif/Model/DeRham.lean` every function computes its result afresh.
-/

namespace Verif

/-- The fields of `de_Rham_non_degenerate_local` (dr_nd.h:20-75) that the constructor sets. -/
structure ND (R : Type) extends DR R where
  ndBasis : List IVec
  ndDict : MonMap Nat

/-- Read `G[i]`. -/
def CVec.at {R : Type} (G : CVec R) (i : Nat) : Res R := if i < G.len then .ok (G.e i) else .error .ub

/-! ### matrix_ND -/

/-- The innermost loop of `matrix_ND` (dr_nd/dr_nd.cc:1431-1434): one column, over the terms of `f`. -/
def matrixNDCol {R : Type} [CommRing R] (f : MonMap R) (dictL : MonMap Nat) (t : IVec) (i col : Nat)
    (M : CMat R) : Res (CMat R) :=
  f.foldlM (fun M e => do
    let mon ← addVec e.1 t
    let row ← look dictL mon
    M.put row col ((e.1.getD i 0 : Int) * e.2)) M

/-- `matrix_ND(result, l)` (dr_nd/dr_nd.cc:1400-1437). -/
def matrixND {R : Type} [CommRing R] (D : DR R) (l : Int) : Res (CMat R) := do
  if l < (D.d : Int) then
    let L ← D.list l
    pure (CMat.mk' L.length 0 (fun _ _ => 0))
  else
    let L ← D.list l
    let S ← D.list (l - D.d)
    let dictL ← D.dict l
    forRange (D.n + 1) (CMat.mk' L.length ((D.n + 1) * S.length) (fun _ _ => 0)) (fun i M =>
      forRange S.length M (fun j M =>
        matrixNDCol D.f dictL (S.getD j []) i (i * S.length + j) M))

/-- The pair computed by `get_solve_ND(level)` (dr_nd/dr_nd.cc:358-382). -/
def solveND {R : Type} [CommRing R] (solve : Solver R) (D : DR R) (l : Int) :
    Res (List Nat × CMat R) := do
  let M ← matrixND D l
  solve M

/-- The degree `(d-1)(n+1)+1` in which all monomials are combinations of the `x_i ∂_i f`. -/
def DR.topND {R : Type} (D : DR R) : Int := ((D.d : Int) - 1) * (D.n + 1) + 1

/-! ### init_ND -/

/-- The coefficients of `(1 + x + ... + x^(d-1))^(n+1)` (dr_nd/dr_nd.cc:201-213). -/
def hilbertND (d n : Nat) : Nat → Int :=
  Nat.rec (fun k => if k = 0 then 1 else 0)
    (fun _ H => polyMul H (fun k => if k < d then 1 else 0)) (n + 1)

/-- The loop appending the monomials of `coKernels_ND_basis` (dr_nd/dr_nd.cc:224-230). -/
def initBasisND {R : Type} [CommRing R] (solve : Solver R) (D : DR R) : Res (List IVec) :=
  forRange (D.n + 1) [] (fun i acc => do
    let BU ← solveND solve D ((i : Int) * D.d)
    let L ← D.list ((i : Int) * D.d)
    check (decide (hilbertND D.d D.n (i * D.d) = BU.1.length))
    let mons ← BU.1.mapM (fun b => aget L b)
    pure (acc ++ mons))

/-- `init_ND(p, precision, f, ...)` (dr_nd/dr_nd.cc:194-243). -/
def ND.init {R : Type} [CommRing R] (solve : Solver R) (p : Nat) (f : MonMap R) : Res (ND R) := do
  let D ← DR.init solve p f
  let top ← solveND solve D D.topND
  check (decide (top.1.length = 0))
  let basis ← initBasisND solve D
  check (decide (basis.length = D.d ^ D.n))
  pure { toDR := D, ndBasis := basis, ndDict := buildDict basis }

/-! ### compute_reduction_matrix_ND -/

/-- `U[i]` (dr_nd/dr_nd.cc:888-895). -/
def ndUnit (n i : Nat) : IVec := (List.replicate (n + 1) (0 : Int)).set i 1

section

variable {R : Type} [CommRing R]

/-- `Hnew[key].SetLength(len); Hnew[key][c] += x`. -/
def hAdd (len : Nat) (H : MonMap (CVec R)) (key : IVec) (c : Nat) (x : R) : Res (MonMap (CVec R)) :=
  if c < len then .ok (addTerm len H key c x) else .error .ub

/-- `result[key]`, created as a `dim x dim` zero matrix when absent, entry `[r][c] += x`
(dr_nd/dr_nd.cc:1025-1032, 1046-1053). -/
def matAdd (dim : Nat) (res : MonMap (CMat R)) (key : IVec) (r c : Nat) (x : R) : Res (MonMap (CMat R)) :=
  let M := (MonMap.find? res key).getD (CMat.mk' dim dim (fun _ _ => 0))
  if r < M.rows ∧ c < M.cols then
    .ok (MonMap.set res key ⟨M.rows, M.cols, fun a b => if a = r ∧ b = c then M.e a b + x else M.e a b⟩)
  else .error .ub

/-- The loops over `i` and the monomials of `F_i`: `Hnew[κ + U_i][c] += F_is`, `Hnew[κ][c] += t_i F_is`,
where `tgt s = (c, t)` gives the coordinate and the exponent of the monomial written to
(dr_nd/dr_nd.cc:947-965 with `t = r + w`; 996-1013 with `t = w`).  The vectors are created by the first
addition; the code creates them just before, which is the same since there is at least one `s`. -/
def ndScatter (n len cnt : Nat) (tgt : Nat → Res (Nat × IVec)) (key : IVec) (F : CVec R)
    (Hnew : MonMap (CVec R)) : Res (MonMap (CVec R)) :=
  forRange (n + 1) Hnew (fun i Hnew => do
    let keyi ← addVec key (ndUnit n i)
    forRange cnt Hnew (fun s Hnew => do
      let ct ← tgt s
      let x ← F.at (i * cnt + s)
      let Hnew ← hAdd len Hnew keyi ct.1 x
      hAdd len Hnew key ct.1 (((ct.2.getD i 0 : Int) : R) * x)))

/-- The cokernel part of one entry (dr_nd/dr_nd.cc:1020-1035). -/
def ndCokernel (N : ND R) (listT : List IVec) (B : List Nat) (off : Nat) (key : IVec) (F : CVec R)
    (col : Nat) (res : MonMap (CMat R)) : Res (MonMap (CMat R)) :=
  forRange B.length res (fun j res => do
    let b ← aget B j
    let t ← aget listT b
    let row ← look N.ndDict t
    let x ← F.at (off + j)
    matAdd N.ndBasis.length res key row col x)

/-- The constant term at the end of the pass `k == 0` (dr_nd/dr_nd.cc:1040-1055). -/
def ndConst (N : ND R) (k col : Nat) (H : MonMap (CVec R)) (res : MonMap (CMat R)) :
    Res (MonMap (CMat R)) :=
  if k = 0 then
    H.foldlM (fun res e => do
      let x ← e.2.at 0
      matAdd N.ndBasis.length res e.1 0 col x) res
  else .ok res

/-- The body of the loop over the entries of `H` (dr_nd/dr_nd.cc:992-1036). -/
def ndEntry (N : ND R) (BU : List Nat × CMat R) (listS listT : List IVec) (k col : Nat)
    (st : MonMap (CVec R) × MonMap (CMat R)) (e : IVec × CVec R) :
    Res (MonMap (CVec R) × MonMap (CMat R)) := do
  let F ← BU.2.mulVec e.2
  let Hnew ← ndScatter N.n listS.length listS.length (fun s => .ok (s, listS.getD s [])) e.1 F st.1
  if k + 1 ≤ N.n then
    let res ← ndCokernel N listT BU.1 ((N.n + 1) * listS.length) e.1 F col st.2
    pure (Hnew, res)
  else pure (Hnew, st.2)

/-- `for (k = steps - 1; k >= 0; k--)` (dr_nd/dr_nd.cc:980-1056). -/
def ndLoop (N : ND R) (solves : List (List Nat × CMat R)) (col : Nat) :
    Nat → MonMap (CVec R) → MonMap (CMat R) → Res (MonMap (CMat R))
  | 0, _, res => .ok res
  | k + 1, H, res => do
      let BU ← aget solves k
      let listS ← N.list ((k : Int) * N.d)
      let listT ← N.list (((k : Int) + 1) * N.d)
      let st ← H.foldlM (ndEntry N BU listS listT k col) ([], res)
      let res ← ndConst N k col st.1 st.2
      ndLoop N solves col k st.1 res

/-- Column `c` of a matrix as a vector (dr_nd/dr_nd.cc:940-944). -/
def CMat.colVec (M : CMat R) (c : Nat) : Res (CVec R) :=
  if c < M.cols then .ok (CVec.mk' M.rows (fun i => M.e i c)) else .error .ub

/-- The first `H` and `reduction_steps` for the basis monomial `b` (dr_nd/dr_nd.cc:928-978). -/
def ndStart (N : ND R) (solves : List (List Nat × CMat R)) (v b : IVec) (l : Int) :
    Res (MonMap (CVec R) × Nat) :=
  if l = N.n then do
    let r ← tweak v ((N.d : Int) - N.n)
    let s ← subVec v r
    let w ← addVec b s
    let dictW ← N.dict N.topND
    let c ← look dictW w
    let listF ← N.list ((N.d : Int) * N.n - N.n)
    let listH ← N.list ((N.n : Int) * N.d)
    let dictH ← N.dict ((N.n : Int) * N.d)
    let top ← aget solves N.n
    let F ← top.2.colVec c
    let H ← ndScatter N.n listH.length listF.length (fun s => do
      let t ← addVec r (listF.getD s [])
      let c ← look dictH t
      pure (c, t)) (List.replicate (N.n + 1) 0) F []
    pure (H, N.n)
  else do
    let listH ← N.list ((l + 1) * N.d)
    let dictH ← N.dict ((l + 1) * N.d)
    let w ← addVec b v
    let c ← look dictH w
    pure ([(List.replicate (N.n + 1) 0, CVec.unit listH.length c)], (l + 1).toNat)

/-- One pass of the (parallel) loop over the columns (dr_nd/dr_nd.cc:912-1057).  Additions to `result`
happen in critical sections. -/
def ndColumn (N : ND R) (solves : List (List Nat × CMat R)) (v : IVec) (col : Nat)
    (res : MonMap (CMat R)) : Res (MonMap (CMat R)) := do
  let b ← aget N.ndBasis col
  if N.d = 0 then .error .ub
  else
    check (decide (sumVec b % N.d = 0))
    let st ← ndStart N solves v b (sumVec b / N.d)
    ndLoop N solves col st.2 st.1 res

/-- NTL's `IsZero(M)`. -/
def CMat.isZero [DecidableEq R] (M : CMat R) : Bool :=
  (List.range M.rows).all (fun i => (List.range M.cols).all (fun j => decide (M.e i j = 0)))

/-- `compute_reduction_matrix_ND(v)` (dr_nd/dr_nd.cc:863-1072) computed afresh. -/
def redMatND [DecidableEq R] (solve : Solver R) (N : ND R) (v : IVec) : Res (MonMap (CMat R)) := do
  check (decide (sumVec v = N.d))
  let low ← (List.range N.n).mapM (fun i : Nat => solveND solve N.toDR (((i : Int) + 1) * N.d))
  let top ← solveND solve N.toDR N.topND
  let res ← forRange N.ndBasis.length [] (fun col res => ndColumn N (low ++ [top]) v col res)
  pure (res.filter (fun e => !e.2.isZero))

/-! ### get_reduction_matrix_ND, reduce_vector_ND -/

/-- `Π u_i^(κ_i)` (dr_nd/dr_nd.cc:410-412).  The exponents are sums of unit vectors, so `power_ZZ` is never
called with a negative exponent. -/
def ndMon (n : Nat) (u key : IVec) : Int :=
  (List.range (n + 1)).foldl (fun a (i : Nat) => a * u.getD i 0 ^ (key.getD i 0).toNat) 1

/-- The checks on `u`, `v` (dr_nd/dr_nd.cc:390-398, 459-467). -/
def checkND (N : ND R) (u v : IVec) : Res Unit := do
  check (decide (sumVec v = N.d))
  if N.d = 0 then .error .ub else check (decide (sumVec u % N.d = 0))

/-- `get_reduction_matrix_ND(u, v)` (dr_nd/dr_nd.cc:384-418). -/
def getReductionMatrixND [DecidableEq R] (solve : Solver R) (N : ND R) (u v : IVec) : Res (CMat R) := do
  checkND N u v
  let Ms ← redMatND solve N v
  Ms.foldlM (fun (M : CMat R) e =>
    if e.2.rows = M.rows ∧ e.2.cols = M.cols then
      .ok (CMat.mk' M.rows M.cols (fun i j => M.e i j + ((ndMon N.n u e.1 : Int) : R) * e.2.e i j))
    else .error .abort) (CMat.mk' N.ndBasis.length N.ndBasis.length (fun _ _ => 0))

/-- `reduce_vector_ND(result, u, v, G)` (dr_nd/dr_nd.cc:455-488). -/
def reduceVectorND [DecidableEq R] (solve : Solver R) (N : ND R) (u v : IVec) (G : CVec R) :
    Res (CVec R) := do
  checkND N u v
  let Ms ← redMatND solve N v
  Ms.foldlM (fun (H : CVec R) e => do
    let T ← e.2.mulVec (CVec.mk' G.len (fun i => ((ndMon N.n u e.1 : Int) : R) * G.e i))
    if T.len = H.len then .ok (CVec.mk' H.len (fun i => H.e i + T.e i)) else .error .abort)
    (CVec.mk' N.ndBasis.length (fun _ => 0))

/-! ### The way to the cohomology basis -/

/-- `get_inclusion_matrix_ND(u, l)` computed afresh (dr_nd/dr_nd.cc:1217-1275). -/
def inclMatND (solve : Solver R) (N : ND R) (u : IVec) (l : Nat) : Res (CMat R) := do
  check (u.all (fun x => decide (0 < x)))
  check (decide (sumVec u = N.d))
  check (decide (l < N.n))
  let BU ← solveND solve N.toDR ((l : Int) * N.d)
  let listL ← N.list ((l : Int) * N.d)
  let listG ← N.list (((l : Int) + 1) * N.d - (N.n + 1))
  let dictG ← N.dict (((l : Int) + 1) * N.d - (N.n + 1))
  forRange BU.1.length (CMat.mk' listG.length BU.1.length (fun _ _ => 0)) (fun j M => do
    let b ← aget BU.1 j
    let t ← aget listL b
    let w ← addVec t (u.map (· - 1))
    let row ← look dictG w
    M.put row j 1)

/-- The vector `H` for a monomial of degree `n d` (dr_nd/dr_nd.cc:1370-1391), from `a` and the column `F`:
the derivatives of `x^a F_i`. -/
def ndDeriv (n : Nat) (listF listH : List IVec) (dictH : MonMap Nat) (a : IVec) (F : CVec R) :
    Res (CVec R) :=
  forRange (n + 1) (CVec.mk' listH.length (fun _ => (0 : R))) (fun i H =>
    forRange listF.length H (fun s H => do
      let m ← addVec a (listF.getD s [])
      if 0 < m.getD i 0 then
        let t ← subVec m (ndUnit n i)
        let row ← look dictH t
        let x ← F.at (i * listF.length + s)
        if row < H.len then
          pure ⟨H.len, upd H.e row (H.e row + ((m.getD i 0 : Int) : R) * x)⟩
        else .error .ub
      else .ok H))

/-- One column of the last block of `coKernels_ND_to_basis` (dr_nd/dr_nd.cc:1366-1397). -/
def ndTopCol (solve : Solver R) (N : ND R) (topJ : CMat R) (listF listH : List IVec)
    (dictH dictW : MonMap Nat) (u mon : IVec) : Res (CVec R) := do
  let tt ← tweak mon N.n
  let a ← subVec mon tt
  let w ← addVec tt (u.map (· - 1))
  let c ← look dictW w
  let F ← topJ.colVec c
  let H ← ndDeriv N.n listF listH dictH a F
  let M ← finalMatJ solve N.toDR N.n
  M.mulVec H

/-- Copy a matrix to columns `pos ..` (dr_nd/dr_nd.cc:1351-1357). -/
def putBlock (M tmp : CMat R) (pos : Nat) : Res (CMat R) :=
  forRange tmp.rows M (fun i M => forRange tmp.cols M (fun j M => M.put i (pos + j) (tmp.e i j)))

/-- `get_coKernels_ND_to_basis(u)` computed afresh (dr_nd/dr_nd.cc:1277-1398). -/
def cokernelsToBasis (solve : Solver R) (N : ND R) (u : IVec) : Res (CMat R) := do
  check (u.all (fun x => decide (0 < x)))
  check (decide (sumVec u = N.d))
  let st ← forRange N.n ((CMat.mk' N.basis.length N.ndBasis.length (fun _ _ => 0), 0) : CMat R × Nat)
    (fun l st => do
      let A ← finalMatJ solve N.toDR (l + 1)
      let B ← inclMatND solve N u l
      let tmp ← A.mul B
      let M ← putBlock st.1 tmp st.2
      pure (M, st.2 + tmp.cols))
  let topJ ← solveJ solve N.toDR N.topLevel
  let BU ← solveND solve N.toDR ((N.d : Int) * N.n)
  let listF ← N.list ((N.d : Int) * N.n - 2 * N.n)
  let listL ← N.list ((N.d : Int) * N.n)
  let listH ← N.list ((N.d : Int) * N.n - (N.n + 1))
  let dictH ← N.dict ((N.d : Int) * N.n - (N.n + 1))
  let dictW ← N.dict N.topLevel
  let st ← forRange BU.1.length st (fun j st => do
    let b ← aget BU.1 j
    let mon ← aget listL b
    let col ← ndTopCol solve N topJ.2 listF listH dictH dictW u mon
    let M ← forRange col.len st.1 (fun i M => M.put i st.2 (col.e i))
    pure (M, st.2 + 1))
  pure st.1

/-! ### monomial_to_basis_ND -/

/-- The inner `for`: raise the first `v_i` with `u_i > v_i + 1` (dr_nd/dr_nd.cc:1476-1484;
hypersurface_nd/hypersurface_nd.cc:182-190). -/
def bumpND : IVec → IVec → Option IVec
  | x :: u, y :: v => if y + 1 < x then some ((y + 1) :: v) else (bumpND u v).map (y :: ·)
  | _, _ => none

/-- `while (sum < d)` with `k = d - sum`.  When no entry can be raised the loop never ends. -/
def dirLoopND (u : IVec) : Nat → IVec → Res IVec
  | 0, v => .ok v
  | k + 1, v =>
      match bumpND u v with
      | none => .error .diverge
      | some v' => dirLoopND u k v'

/-- The direction chosen for `u` (dr_nd/dr_nd.cc:1469-1485). -/
def directionND (d : Nat) (u : IVec) : Res IVec := dirLoopND u d (u.map (fun _ => (0 : Int)))

/-- `for (e = m; e > 1; e--)` (dr_nd/dr_nd.cc:1467-1492), `cnt = m - 1` passes; the state is `(u, G)`. -/
def mtbLoopND [DecidableEq R] (solve : Solver R) (N : ND R) : Nat → IVec → CVec R → Res (IVec × CVec R)
  | 0, u, G => .ok (u, G)
  | cnt + 1, u, G => do
      let v ← directionND N.d u
      let u' ← subVec u v
      let G' ← reduceVectorND solve N u' v G
      mtbLoopND solve N cnt u' G'

/-- `monomial_to_basis_ND(u)` (dr_nd/dr_nd.cc:1443-1500). -/
def monomialToBasisND [DecidableEq R] (solve : Solver R) (N : ND R) (u : IVec) : Res (CVec R) := do
  check (decide (u.length = N.n + 1))
  check (u.all (fun x => decide (0 < x)))
  if N.d = 0 then .error .ub
  else
    check (decide (sumVec u % N.d = 0))
    if N.ndBasis.length = 0 then .error .ub
    else
      let st ← mtbLoopND solve N (sumVec u / N.d - 1).toNat u (CVec.unit N.ndBasis.length 0)
      check (decide (sumVec st.1 = N.d))
      let M ← cokernelsToBasis solve N st.1
      M.mulVec st.2

end

end Verif
