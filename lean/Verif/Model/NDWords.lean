import Verif.Model.SolveWords
import Verif.Model.NDBatch

/-!
`reduce_vector_ND_poly_flint` and `finitediff_flint_nmod` (dr_nd/dr_nd.cc:749-859, 1740-1751, 1858-1991) for moduli of one machine word,
with vectors and matrices as FLINT holds them: words and rows of words, with the buffers that are exchanged after every product.
-/

namespace Verif

/-- `fmpz_get_ui` of FLINT: asks for a number in `[0, 2^64)`. -/
def getUi (z : Int) : Res Nat := if 0 ≤ z ∧ z < 2 ^ 64 then .ok z.toNat else .error .ub

/-- `Gin[i] = fmpz_get_ui(G + i)` (dr_nd/dr_nd.cc:810-814, 1873-1877). -/
def vecWords (d : Nat) (G : CVec Int) : Res (List Nat) :=
  (List.range d).mapM (fun i => do
    let z ← G.at i
    getUi z)

/-- The double loop over the entries of one matrix (dr_nd/dr_nd.cc:826-828, 1895-1899). -/
def matWords (d : Nat) (M : CMat Int) : Res (List (List Nat)) :=
  (List.range d).mapM (fun j => (List.range d).mapM (fun l => do
    let z ← M.at j l
    getUi z))

/-- All `len` matrices (dr_nd/dr_nd.cc:823-829, 1889-1908). -/
def polyWords (d len : Nat) (Ms : Nat → CMat Int) : Res (List (List (List Nat))) :=
  (List.range len).mapM (fun i => matWords d (Ms i))

/-- `_nmod_vec_scalar_addmul_nmod(res, vec, len, c, mod)` of FLINT: `res += c * vec`. -/
def nmodVecAddmul (m : Nat) (res v : List Nat) (len c : Nat) : Res (List Nat) :=
  (List.range len).mapM (fun i => do
    let x ← aget res i
    let y ← aget v i
    let z ← nmodMul m y c
    nmodAdd m x z)

/-! ### few steps -/

/-- The loop over `i` (dr_nd/dr_nd.cc:834-839): `xpower`, `Gout`, `Gtmp`. -/
def shortPowers (m n d : Nat) (M : List (List (List Nat))) (Gin : List Nat) (x : Nat) (Gout Gtmp : List Nat) :
    Res (Nat × List Nat × List Nat) :=
  forRange n (1, Gout, Gtmp) (fun i s => do
    let xp ← nmodMul m s.1 x
    let Mi ← aget M (i + 1)
    let Gtmp ← nmodMatVec m s.2.2 Mi d Gin
    let Gout ← nmodVecAddmul m s.2.1 Gtmp d xp
    pure (xp, Gout, Gtmp))

/-- The body of the loop over `x` (dr_nd/dr_nd.cc:832-846); the state is `Gin`, `Gout`, `Gtmp`, at the end `Gin` and `Gout` are
exchanged. -/
def shortStep (m n d : Nat) (M : List (List (List Nat))) (x : Nat) (s : List Nat × List Nat × List Nat) :
    Res (List Nat × List Nat × List Nat) := do
  let M0 ← aget M 0
  let Gout ← nmodMatVec m s.2.1 M0 d s.1
  let r ← shortPowers m n d M s.1 x Gout s.2.2
  let xp ← nmodMul m r.1 x
  let Ml ← aget M (n + 1)
  let row ← aget Ml 0
  let tmp ← nmodDot m row s.1 d
  let tmp ← nmodMul m tmp xp
  let y ← aget r.2.1 0
  let w ← nmodAdd m y tmp
  let Gout ← aset r.2.1 0 w
  pure (Gout, s.1, r.2.2)

/-- The loop over `x = k - 1, ..., 0` (dr_nd/dr_nd.cc:830-847), with `x + 1` passes left. -/
def shortLoop (m n d : Nat) (M : List (List (List Nat))) : Nat → List Nat × List Nat × List Nat → Res (List Nat × List Nat × List Nat)
  | 0, s => .ok s
  | x + 1, s => shortStep m n d M x s >>= shortLoop m n d M x

/-! ### finite differences -/

/-- `max_row`, `min_col` of one matrix (dr_nd/dr_nd.cc:1891-1907). -/
def boxWords (d : Nat) (M : List (List Nat)) : Res (Nat × Nat) :=
  forRange d (0, d) (fun j b => forRange d b (fun l b => do
    let x ← aget2 M j l
    pure (if x ≠ 0 then (if b.1 ≤ j then j + 1 else b.1, if l < b.2 then l else b.2) else b)))

/-- The loop that drops the zero matrices at the end (dr_nd/dr_nd.cc:1909-1915), with `m` matrices left. -/
def trimWords (d : Nat) (box : List (Nat × Nat)) : Nat → Res Nat
  | 0 => .error .ub
  | m + 1 => do
      let b ← aget box m
      if b = (0, d) then trimWords d box m else .ok (m + 1)

/-- `nmod_pow_ui(a, e, mod)` of FLINT: asks for a reduced base. -/
def nmodPow (m a e : Nat) : Res Nat := if a < m then .ok (a ^ e % m) else .error .ub

/-- `nmod_mat_scalar_addmul_ui(C, A, B, c)` of FLINT: `C = A + c * B`. -/
def nmodMatAddmul (m d : Nat) (A B : List (List Nat)) (c : Nat) : Res (List (List Nat)) :=
  (List.range d).mapM (fun i => (List.range d).mapM (fun j => do
    let x ← aget2 A i j
    let y ← aget2 B i j
    let z ← nmodMul m y c
    nmodAdd m x z))

/-- `Mfd[l]` of the first table (dr_nd/dr_nd.cc:1927-1938) with `c = n + 2` matrices left; `nmod_mat_init` gives the zero matrix. -/
def startWords (m d c k : Nat) (M : List (List (List Nat))) (l : Nat) : Res (List (List Nat)) :=
  forRange c (List.replicate d (List.replicate d 0)) (fun i F => do
    let t ← nmodPow m (k - c + l) i
    let Mi ← aget M i
    nmodMatAddmul m d F Mi t)

/-- `for(l = 0; l < n + 2; l++) { mul(Hout, Mfd + n + 1 - l, H); swap(H, Hout); }` (dr_nd/dr_nd.cc:1939-1945); the state is `H`, `Hout`. -/
def firstWords (m d : Nat) (F : List (List (List Nat))) : Nat → List Nat × List Nat → Res (List Nat × List Nat)
  | 0, s => .ok s
  | c + 1, s => do
      let A ← aget F c
      let Hout ← nmodMatVec m s.2 A d s.1
      firstWords m d F c (Hout, s.1)

/-- `for(j = n + 1; j >= l; j--) nmod_mat_sub(Mfd + j, Mfd + j, Mfd + j - 1)` (dr_nd/dr_nd.cc:1949-1951) with `c` passes left. -/
def passWords (m d l : Nat) : Nat → List (List (List Nat)) → Res (List (List (List Nat)))
  | 0, F => .ok F
  | c + 1, F => do
      let A ← aget F (l + c)
      let B ← aget F (l + c - 1)
      let C ← nmodMatSub m d d A id (fun _ => B)
      let F ← aset F (l + c) C
      passWords m d l c F

/-- The table of differences (dr_nd/dr_nd.cc:1949-1951). -/
def tableWords (m d c : Nat) (F : List (List (List Nat))) : Res (List (List (List Nat))) :=
  forRange (c - 1) F (fun i F => passWords m d (i + 1) (c - 1 - i) F)

/-- `nmod_mat_sub_submatrix(C, C, B, max_row, min_col)` (dr_nd/dr_nd.cc:1740-1751): the rows are given by a pointer, increased by
`min_col`. -/
def subBoxWords (m d : Nat) (C B : List (List Nat)) (maxRow minCol : Nat) : Res (List (List Nat)) :=
  if d = 0 then .ok C
  else forRange maxRow C (fun i C => do
    let a ← aget C i
    let b ← aget B i
    let x ← nmodVecSub m (a.drop minCol) (b.drop minCol) (d - minCol)
    aset C i (a.take minCol ++ x))

/-- `for(j = n; j >= 0; j--)` (dr_nd/dr_nd.cc:1962-1968) with `c` passes left. -/
def updateWords (m d : Nat) (box : List (Nat × Nat)) : Nat → List (List (List Nat)) → Res (List (List (List Nat)))
  | 0, F => .ok F
  | c + 1, F => do
      let A ← aget F c
      let B ← aget F (c + 1)
      let b ← aget box (c + 1)
      let C ← subBoxWords m d A B b.1 b.2
      let F ← aset F c C
      updateWords m d box c F

/-- The loop over `l` (dr_nd/dr_nd.cc:1953-1973) with `a` passes left. -/
def loopWords (m d : Nat) (box : List (Nat × Nat)) (c : Nat) : Nat → List (List (List Nat)) → List Nat × List Nat →
    Res (List (List (List Nat)) × List Nat)
  | 0, F, s => .ok (F, s.1)
  | a + 1, F, s => do
      let F ← updateWords m d box (c - 1) F
      let A ← aget F 0
      let Hout ← nmodMatVec m s.2 A d s.1
      loopWords m d box c a F (Hout, s.1)

/-- `finitediff_flint_nmod` (dr_nd/dr_nd.cc:1858-1991) after the conversions. -/
def fdWords (m d len k : Nat) (M : List (List (List Nat))) (H Hout : List Nat) : Res (List Nat) := do
  let box ← M.mapM (boxWords d)
  let c ← trimWords d box len
  let F ← (List.range c).mapM (startWords m d c k M)
  let s ← firstWords m d F c (H, Hout)
  let F ← tableWords m d c F
  let r ← loopWords m d box c (k - c) F s
  let F0 ← aget r.1 0
  let M0 ← aget M 0
  check (decide (F0 = M0))
  .ok r.2

/-- `fmpz_set_ui(result + i, H[i])` (dr_nd/dr_nd.cc:852-853, 1983-1984). -/
def wordsToVec (H : List Nat) : CVec Int := CVec.mk' H.length (fun i => (H.getD i 0 : Int))

/-- `reduce_vector_ND_poly_flint(result, poly, iterations, G, modulus)` (dr_nd/dr_nd.cc:749-859) for a modulus `m` of one word; `junk` and
`junk'` are what the buffers hold after `_nmod_vec_init`. -/
def reduceNDWords (m n : Nat) (poly : Nat → CMat Int) (k : Int) (G : CVec Int) (junk junk' : List Nat) : Res (CVec Int) := do
  let d := (poly 0).cols
  if (n : Int) + 1 < k then
    let H ← vecWords d G
    let M ← polyWords d (n + 2) poly
    let H ← fdWords m d (n + 2) k.toNat M H junk
    .ok (wordsToVec H)
  else
    let Gin ← vecWords d G
    let M ← polyWords d (n + 2) poly
    let s ← shortLoop m n d M k.toNat (Gin, junk, junk')
    .ok (wordsToVec s.1)

end Verif
