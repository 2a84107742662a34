import Verif.Model.ND
import Verif.Model.Poly
import Verif.Model.Batch
import Verif.Model.Paths

/-!
Model of the batched reductions of `de_Rham_non_degenerate_local` (`dr_nd/dr_nd.cc`): over `ZZ_p`, over
`ZZ`, with flint, and the finite differences of `finitediff_flint_nmod`.

The vectors `poly`, `M`, `Mfd` of matrices are `Nat → CMat`; indices out of their range are `ub`.
-/

namespace Verif

section

variable {R : Type} [CommRing R]

/-! ### compute_reduction_matrix_ND_poly -/

/-- `P[0] += c * M[0]`: only the first row (dr_nd/dr_nd.cc:564, 640, 729, 1153). -/
def addRow0 (P : CMat R) (c : R) (M : CMat R) : Res (CMat R) :=
  if P.rows = 0 ∨ M.rows = 0 then .error .ub
  else if M.cols = P.cols then
    .ok (CMat.mk' P.rows P.cols (fun r j => if r = 0 then P.e 0 j + c * M.e 0 j else P.e r j))
  else .error .abort

/-- `P += c * M` (dr_nd/dr_nd.cc:566, 642, 731, 1157). -/
def addScaled (P : CMat R) (c : R) (M : CMat R) : Res (CMat R) :=
  if M.rows = P.rows ∧ M.cols = P.cols then
    .ok (CMat.mk' P.rows P.cols (fun r j => P.e r j + c * M.e r j))
  else .error .abort

/-- The two branches. -/
def addTop (row0 : Bool) (P : CMat R) (c : R) (M : CMat R) : Res (CMat R) :=
  if row0 then addRow0 P c M else addScaled P c M

/-- The sum of the first `m` entries. -/
def headSum (m : Nat) (key : IVec) : Int := (List.range m).foldl (fun a i => a + key.getD i 0) 0

/-- The loop over `monomial_expanded` (dr_nd/dr_nd.cc:1142-1159). -/
def expandInto (dim : Nat) (row0 : Bool) (M : CMat R) (mons : MonMap Int) (res : MonMap (CMat R)) :
    Res (MonMap (CMat R)) :=
  mons.foldlM (fun res m => do
    let P := (MonMap.find? res m.1).getD (CMat.mk' dim dim (fun _ _ => 0))
    let P' ← addTop row0 P (m.2 : R) M
    .ok (MonMap.set res m.1 P')) res

/-- `compute_reduction_matrix_ND_poly(v)` (dr_nd/dr_nd.cc:1106-1178) computed afresh: the reduction matrices
with `u` replaced by `u + x v`, the exponent of `x` last in the key. -/
def redMatNDPoly [DecidableEq R] (solve : Solver R) (N : ND R) (v : IVec) : Res (MonMap (CMat R)) := do
  let Ms ← redMatND solve N v
  let res ← Ms.foldlM (fun res e => do
    let mons ← changeOfVariablesMonomial e.1 v
    expandInto N.ndBasis.length (decide (headSum (N.n + 1) e.1 = N.n + 1)) e.2 mons res) []
  .ok (res.filter (fun e => !e.2.isZero))

/-! ### The polynomial in x for a given u -/

/-- One entry (dr_nd/dr_nd.cc:554-568). -/
def ndPolyAdd (n : Nat) (u : IVec) (poly : Nat → CMat R) (e : IVec × CMat R) : Res (Nat → CMat R) :=
  let x := e.1.getD (n + 1) 0
  if x < 0 ∨ (n : Int) + 1 < x then .error .ub
  else do
    let P ← addTop (decide (headSum (n + 2) e.1 = n + 1)) (poly x.toNat) ((ndMon n u e.1 : Int) : R) e.2
    .ok (fun i => if i = x.toNat then P else poly i)

/-- `poly[0], ..., poly[n+1]` (dr_nd/dr_nd.cc:545-568). -/
def ndPolys (n dim : Nat) (u : IVec) (E : MonMap (CMat R)) : Res (Nat → CMat R) :=
  E.foldlM (ndPolyAdd n u) (fun _ => CMat.mk' dim dim (fun _ _ => 0))

/-- The body of the loop over `x` (dr_nd/dr_nd.cc:573-592, 663-683, 768-783, 830-846): the powers `x^0`
to `x^n` with all rows, `x^(n+1)` with row 0.  `red` is the identity or the remainder. -/
def ndPolyStep (red : R → R) (n : Nat) (poly : Nat → CMat R) (x : Nat) (G : CVec R) : Res (CVec R) := do
  let G0 ← (poly 0).mulVec G
  let G1 ← forRange n G0 (fun i res => do
    let Gi ← (poly (i + 1)).mulVec G
    if Gi.len = res.len then .ok (CVec.mk' res.len (fun r => res.e r + (x : R) ^ (i + 1) * Gi.e r))
    else .error .abort)
  if (poly (n + 1)).rows = 0 ∨ G1.len = 0 then .error .ub
  else if (poly (n + 1)).cols = G.len then
    .ok (CVec.mk' G1.len (fun r => red (G1.e r + if r = 0 then
      (x : R) ^ (n + 1) * sumLoop G.len (fun c => (poly (n + 1)).e 0 c * G.e c) else 0)))
  else .error .abort

/-- The loop `x = iterations - 1, ..., 0` with `x + 1` passes left. -/
def ndPolyLoop (red : R → R) (n : Nat) (poly : Nat → CMat R) : Nat → CVec R → Res (CVec R)
  | 0, G => .ok G
  | x + 1, G => ndPolyStep red n poly x G >>= ndPolyLoop red n poly x

/-- `reduce_vector_ND_poly(result, u, v, iterations, G)` (dr_nd/dr_nd.cc:524-595).  With a negative count the
loop runs into signed overflow. -/
def reduceVectorNDPoly [DecidableEq R] (solve : Solver R) (N : ND R) (u v : IVec) (k : Int) (G : CVec R) :
    Res (CVec R) := do
  checkND N u v
  let E ← redMatNDPoly solve N v
  let poly ← ndPolys N.n N.ndBasis.length u E
  if k < 0 then .error .ub else ndPolyLoop id N.n poly k.toNat G

end

/-! ### over `ZZ` -/

section

variable {q : Nat}

/-- `compute_reduction_matrix_ND_poly_ZZ(v)` (dr_nd/dr_nd.cc:1180-1212) computed afresh.  With no entries at
all the code leaves no map for `v` and the callers dereference `end()`. -/
def redMatNDPolyZ (solve : Solver (ZMod q)) (N : ND (ZMod q)) (v : IVec) : Res (MonMap (CMat Int)) := do
  let E ← redMatNDPoly solve N v
  if E.isEmpty then .error .ub else .ok (E.map (fun e => (e.1, e.2.map liftZ)))

/-- `get_ND_poly_flint(result, u, v)` (dr_nd/dr_nd.cc:688-744), and the first part of
`reduce_vector_ND_poly_ZZ` (dr_nd/dr_nd.cc:604-653). -/
def getNDPolyZ (solve : Solver (ZMod q)) (N : ND (ZMod q)) (u v : IVec) : Res (Nat → CMat Int) := do
  check (decide (v.length = N.n + 1))
  check (decide (u.length = N.n + 1))
  checkND N u v
  let E ← redMatNDPolyZ solve N v
  let poly ← ndPolys N.n N.ndBasis.length u E
  .ok (fun i => (poly i).map (· % (q : Int)))

/-- `reduce_vector_ND_poly_ZZ(result, u, v, iterations, G)` (dr_nd/dr_nd.cc:600-686). -/
def reduceVectorNDPolyZ (solve : Solver (ZMod q)) (N : ND (ZMod q)) (u v : IVec) (k : Int) (G : CVec Int) :
    Res (CVec Int) := do
  let poly ← getNDPolyZ solve N u v
  if k < 0 then .error .ub else ndPolyLoop (· % (q : Int)) N.n poly k.toNat G

end

/-! ### flint, one limb: `nmod` -/

section

variable (q : Nat)

/-- Whether the entries are in `[0, q)`, as `nmod` asks. -/
def allReduced (l : Nat) (e : Nat → Int) : Bool :=
  (List.range l).all (fun i => decide (0 ≤ e i ∧ e i < (q : Int)))

/-- `H[i] = fmpz_get_ui(G + i)` (dr_nd/dr_nd.cc:810-814, 1873-1877). -/
def nmodVec (d : Nat) (G : CVec Int) : Res (CVec (ZMod q)) :=
  if d ≤ G.len ∧ allReduced q d G.e = true then .ok (CVec.mk' d (fun i => ((G.e i : Int) : ZMod q))) else .error .ub

/-- `nmod_mat_entry(M, j, l) = fmpz_get_ui(...)` (dr_nd/dr_nd.cc:823-829, 1893-1907). -/
def nmodMat (d : Nat) (M : CMat Int) : Res (CMat (ZMod q)) :=
  if d ≤ M.rows ∧ d ≤ M.cols ∧ (List.range d).all (fun j => allReduced q d (M.e j)) = true then
    .ok (CMat.mk' d d (fun j l => ((M.e j l : Int) : ZMod q)))
  else .error .ub

/-- The conversion of `len` matrices. -/
def nmodMats (d : Nat) (Ms : Nat → CMat Int) : Nat → Res (Nat → CMat (ZMod q))
  | 0 => .ok (fun _ => CMat.mk' d d (fun _ _ => 0))
  | m + 1 => do
      let Ns ← nmodMats d Ms m
      let M ← nmodMat q d (Ms m)
      .ok (fun i => if i = m then M else Ns i)

/-- `fmpz_set_ui(result + i, H[i])`. -/
def fromNmod {q : Nat} (H : CVec (ZMod q)) : CVec Int := CVec.mk' H.len (fun i => ((H.e i).val : Int))

variable {q}

/-- `max_row`, `min_col` of one matrix (dr_nd/dr_nd.cc:1888-1908). -/
def boxOf (d : Nat) (M : CMat (ZMod q)) : Nat × Nat :=
  (List.range d).foldl (fun b j => (List.range d).foldl (fun b l =>
    if M.e j l ≠ 0 then (if b.1 ≤ j then j + 1 else b.1, if l < b.2 then l else b.2) else b) b) (0, d)

/-- `while (max_row[i] == 0 and min_col[i] == d and i >= 0) { n--; i--; }` (dr_nd/dr_nd.cc:1909-1915), with `m`
matrices left; the bound on `i` is tested after the reads, so `max_row[-1]` is read when all are zero. -/
def trimLen (d : Nat) (box : Nat → Nat × Nat) : Nat → Res Nat
  | 0 => .error .ub
  | m + 1 => if box m = (0, d) then trimLen d box m else .ok (m + 1)

/-- `Mfd[l] = Σ (k-1-(n+1)+l)^i M[i]` (dr_nd/dr_nd.cc:1924-1938); `a = k-1-(n+1)`, `m = n+2`. -/
def fdStart (d m a : Nat) (M : Nat → CMat (ZMod q)) (l : Nat) : CMat (ZMod q) :=
  CMat.mk' d d (fun r c => sumLoop m (fun i => ((a + l : Nat) : ZMod q) ^ i * (M i).e r c))

/-- `C = A - B` on the rows below `max_row` and the columns from `min_col` on
(`nmod_mat_sub_submatrix`, dr_nd/dr_nd.cc:1740-1751; `nmod_mat_sub` with the full box). -/
def subBox (A B : CMat (ZMod q)) (maxRow minCol : Nat) : CMat (ZMod q) :=
  ⟨A.rows, A.cols, fun r c => if r < maxRow ∧ minCol ≤ c ∧ r < A.rows ∧ c < A.cols then A.e r c - B.e r c else A.e r c⟩

/-- `for(l = 0; l < n + 2; l++) H = Mfd[n+1-l] * H` (dr_nd/dr_nd.cc:1939-1945), from `Mfd[m-1]` to `Mfd[0]`. -/
def fdFirst (Mfd : Nat → CMat (ZMod q)) : Nat → CVec (ZMod q) → Res (CVec (ZMod q))
  | 0, H => .ok H
  | m + 1, H => do
      let H' ← (Mfd m).mulVec H
      fdFirst Mfd m H'

/-- `for(j = n + 1; j >= l; j--) Mfd[j] -= Mfd[j-1]`, with `c` passes left: `j = l+c-1, ..., l`. -/
def fdPass (d l : Nat) : Nat → (Nat → CMat (ZMod q)) → (Nat → CMat (ZMod q))
  | 0, F => F
  | c + 1, F => fdPass d l c (fun i => if i = l + c then subBox (F (l + c)) (F (l + c - 1)) d 0 else F i)

/-- The table of differences (dr_nd/dr_nd.cc:1949-1951). -/
def fdTable (d m : Nat) (F : Nat → CMat (ZMod q)) : Nat → CMat (ZMod q) :=
  (List.range (m - 1)).foldl (fun F i => fdPass d (i + 1) (m - 1 - i) F) F

/-- `for(j = n; j >= 0; j--) Mfd[j] -= Mfd[j+1]` inside the box of `M[j+1]` (dr_nd/dr_nd.cc:1962-1968), with `c`
passes left. -/
def fdUpdate (box : Nat → Nat × Nat) : Nat → (Nat → CMat (ZMod q)) → (Nat → CMat (ZMod q))
  | 0, F => F
  | c + 1, F => fdUpdate box c (fun i => if i = c then subBox (F c) (F (c + 1)) (box (c + 1)).1 (box (c + 1)).2 else F i)

/-- The loop over `l` (dr_nd/dr_nd.cc:1953-1973) with `a` passes left. -/
def fdLoop (box : Nat → Nat × Nat) (m : Nat) : Nat → (Nat → CMat (ZMod q)) → CVec (ZMod q) →
    Res ((Nat → CMat (ZMod q)) × CVec (ZMod q))
  | 0, F, H => .ok (F, H)
  | a + 1, F, H => do
      let F' := fdUpdate box (m - 1) F
      let H' ← (F' 0).mulVec H
      fdLoop box m a F' H'

/-- `finitediff_flint_nmod` after the conversion of the arguments, `len = n + 2` matrices of size `d`. -/
def fdMain (d len k : Nat) (M : Nat → CMat (ZMod q)) (H : CVec (ZMod q)) : Res (CVec (ZMod q)) := do
  let box := fun i => boxOf d (M i)
  let m ← trimLen d box len
  let F := fdStart d m (k - m) M
  let H ← fdFirst F m H
  let r ← fdLoop box m (k - m) (fdTable d m F) H
  check ((r.1 0).eqv (M 0))
  .ok r.2

variable (q)

/-- `finitediff_flint_nmod(result, M_fmpz, Mlength, k, G, modulus)` (dr_nd/dr_nd.cc:1858-1991).
`nmod_pow_ui(k - 1, i, mod)` asks for a base below the modulus. -/
def finiteDiff (Ms : Nat → CMat Int) (len : Nat) (k : Int) (G : CVec Int) : Res (CVec Int) := do
  let d := (Ms 0).cols
  check (decide ((len : Int) - 1 < k))
  let H ← nmodVec q d G
  let M ← nmodMats q d Ms len
  if (q : Int) < k then .error .ub
  else do
    let H ← fdMain d len k.toNat M H
    .ok (fromNmod H)

/-- `reduce_vector_ND_poly_flint(result, poly, iterations, G, modulus)` (dr_nd/dr_nd.cc:749-859).
`nmod_mul(xpower, x, mod)` asks for `x` below the modulus. -/
def reduceVectorNDPolyFlint (n : Nat) (poly : Nat → CMat Int) (k : Int) (G : CVec Int) : Res (CVec Int) :=
  if 2 ^ 64 ≤ q then ndPolyLoop (· % (q : Int)) n poly k.toNat G
  else if (n : Int) + 1 < k then finiteDiff q poly (n + 2) k G
  else do
    let d := (poly 0).cols
    let H ← nmodVec q d G
    let M ← nmodMats q d poly (n + 2)
    if (q : Int) < k then .error .ub
    else do
      let H ← ndPolyLoop id n M k.toNat H
      .ok (fromNmod H)

end

end Verif
