import Verif.Core.Loop
import Mathlib.Data.ZMod.Basic

/-!
Model of matrices: NTL's `Mat<T>` and the flat `mpz_t` arrays of `matrix/` and `conv/`.
-/

namespace Verif

/-- An NTL `Mat<T>`: dimensions and entries (entries outside the dimensions are kept 0). -/
@[ext] structure CMat (R : Type) where
  rows : Nat
  cols : Nat
  e : Nat → Nat → R

/-- `SetDims(r, c)` followed by assigning every entry `(i, j)` the value `f i j`. -/
def CMat.mk' {R : Type} [Zero R] (r c : Nat) (f : Nat → Nat → R) : CMat R :=
  ⟨r, c, fun i j => if i < r ∧ j < c then f i j else 0⟩

/-- `mul_transpose<T>(result, A, B)` (matrix.h:124-147).  (Indices are 0-based here.) -/
def mulTranspose {R : Type} [Zero R] [Add R] [Mul R] (A B : CMat R) : Res (CMat R) := do
  check (decide (A.cols = B.cols))
  pure (CMat.mk' A.rows B.rows (fun i j => sumLoop B.cols (fun k => A.e i k * B.e j k)))

/-- `mul_transpose<ZZ_p>` (matrix/mul_tranpose.cc:18-41): the sum is accumulated over the integer
representatives and reduced once at the end. -/
def mulTransposeZZp {M : Nat} (A B : CMat (ZMod M)) : Res (CMat (ZMod M)) := do
  check (decide (A.cols = B.cols))
  pure (CMat.mk' A.rows B.rows (fun i j =>
    ((sumLoop B.cols (fun k => ((A.e i k).val : Int) * ((B.e j k).val : Int)) : Int) : ZMod M)))

/-- `transpose_mul_transpose<T>(result, A, B)` (matrix.h:184-207). -/
def transposeMulTranspose {R : Type} [Zero R] [Add R] [Mul R] (A B : CMat R) : Res (CMat R) := do
  check (decide (A.cols = B.cols))
  pure (CMat.mk' B.rows A.rows (fun j i => sumLoop B.cols (fun k => A.e i k * B.e j k)))

/-- `transpose_mul_transpose<ZZ_p>` (matrix/transpose_mul_tranpose.cc:17-41). -/
def transposeMulTransposeZZp {M : Nat} (A B : CMat (ZMod M)) : Res (CMat (ZMod M)) := do
  check (decide (A.cols = B.cols))
  pure (CMat.mk' B.rows A.rows (fun j i =>
    ((sumLoop B.cols (fun k => ((A.e i k).val : Int) * ((B.e j k).val : Int)) : Int) : ZMod M)))

/-- `trace(M)` (matrix/trace.cc:14-22). -/
def traceM {R : Type} [Zero R] [Add R] (M : CMat R) : Res R := do
  check (decide (M.rows = M.cols))
  pure (sumLoop M.rows (fun i => M.e i i))

/-! ### flat mpz arrays -/

/-- The inner accumulation `acc += A[ia(k)] * B[ib(k)]` over `k < n`, from 0. -/
def dotFlat (A B : List Int) (ia ib : Nat → Nat) (n : Nat) : Res Int :=
  forRange n 0 (fun k acc => do
    let x ← aget A (ia k)
    let y ← aget B (ib k)
    pure (acc + x * y))

/-- Double loop writing `cell i j` to position `pos i j`. -/
def fillFlat (res : List Int) (r c : Nat) (pos : Nat → Nat → Nat) (cell : Nat → Nat → Res Int) :
    Res (List Int) :=
  forRange r res (fun i res =>
    forRange c res (fun j res => do
      let x ← cell i j
      aset res (pos i j) x))

/-- `mul(mpz_t* result, A, rowsA, colsA, B, rowsB, colsB)` (matrix/mul.cc:18-38).  `result` is the
array before the call, assumed not to overlap `A` and `B`. -/
def mulFlat (res A : List Int) (rowsA colsA : Nat) (B : List Int) (rowsB colsB : Nat) :
    Res (List Int) := do
  check (decide (colsA = rowsB))
  fillFlat res rowsA colsB (fun i j => i * rowsA + j)
    (fun i j => dotFlat A B (fun k => i * rowsA + k) (fun k => k * rowsB + j) rowsB)

/-- `mul_transpose(mpz_t* result, ...)` (matrix/mul_tranpose.cc:45-65). -/
def mulTransposeFlat (res A : List Int) (rowsA colsA : Nat) (B : List Int) (rowsB colsB : Nat) :
    Res (List Int) := do
  check (decide (colsA = rowsB))
  fillFlat res rowsA colsB (fun i j => i * rowsA + j)
    (fun i j => dotFlat A B (fun k => i * rowsA + k) (fun k => j * colsB + k) rowsB)

/-- `mul(mpz_t* result, mpz_t a, mpz_t* A, rowsA, colsA)` (matrix/mul.cc:42-52). -/
def scaleFlat (res : List Int) (a : Int) (A : List Int) (rowsA colsA : Nat) : Res (List Int) :=
  fillFlat res rowsA colsA (fun i j => i * rowsA + j)
    (fun i j => do let x ← aget A (i * rowsA + j); pure (a * x))

/-- `mul(mpz_t* result, A, rowsA, colsA, v, v_size)`, matrix times vector
(matrix/mul.cc:55-71). -/
def matVecFlat (res A : List Int) (rowsA colsA : Nat) (v : List Int) (vSize : Nat) :
    Res (List Int) := do
  check (decide (vSize = colsA))
  forRange rowsA res (fun i res => do
    let x ← dotFlat A v (fun j => i * rowsA + j) (fun j => j) colsA
    aset res i x)

/-- `mul(mpz_t* result, mpz_t a, mpz_t* v, v_length)` (matrix/mul.cc:73-80). -/
def scaleVecFlat (res : List Int) (a : Int) (v : List Int) (n : Nat) : Res (List Int) :=
  forRange n res (fun i res => do
    let x ← aget v i
    aset res i (a * x))

/-- The overload `mul(mpz_t* result, mpz_t* a, a_length, mpz_t* b, b_length)`, which adds
(matrix/mul.cc:84-90; matrix.h documents it as `result = a + b`). -/
def addVecFlat (res a : List Int) (na : Nat) (b : List Int) (nb : Nat) : Res (List Int) := do
  check (decide (na = nb))
  forRange na res (fun i res => do
    let x ← aget a i
    let y ← aget b i
    aset res i (x + y))

/-- `mul(mpz_t &result, u, u_length, v, v_length)`, scalar product (matrix/mul.cc:92-104). -/
def dotVecFlat (u : List Int) (nu : Nat) (v : List Int) (nv : Nat) : Res Int := do
  check (decide (nu = nv))
  dotFlat u v (fun i => i) (fun i => i) nu

/-- `mul(fmpz_t result, v, w, len)` (matrix/mul.cc:121-127): the first product is formed before
the loop, so entry 0 is read even when `len = 0`. -/
def dotVecFmpz (v w : List Int) (len : Nat) : Res Int := do
  let x ← aget v 0
  let y ← aget w 0
  forRange (len - 1) (x * y) (fun i acc => do
    let x ← aget v (i + 1)
    let y ← aget w (i + 1)
    pure (acc + x * y))

/-- `mul(fmpz * result, const fmpz_mat_t A, const fmpz * v)` (matrix/mul.cc:108-119).  FLINT's
matrix is the list of its rows. -/
def matVecFmpz (res : List Int) (A : List (List Int)) (cols : Nat) (v : List Int) :
    Res (List Int) :=
  forRange A.length res (fun i res => do
    let row ← aget A i
    let x ← dotVecFmpz row v cols
    aset res i x)

/-! ### conv.cc -/

/-- `conv(mpz_t* A, const Mat<ZZ> &B)` (conv/conv.cc:62-75): entry `(i, j)` goes to position
`i*rowsB + j` of the array `A`. -/
def convToFlat (arr : List Int) (B : CMat Int) : Res (List Int) :=
  fillFlat arr B.rows B.cols (fun i j => i * B.rows + j) (fun i j => .ok (B.e i j))

/-- `conv(Mat<ZZ> &A, mpz_t* B, rowsB, colsB)` (conv/conv.cc:78-90); the entries are read in
order, the matrix is the list of its rows. -/
def convFromFlat (arr : List Int) (rowsB colsB : Nat) : Res (List (List Int)) :=
  (List.range rowsB).mapM (fun i => (List.range colsB).mapM (fun j => aget arr (i * rowsB + j)))

/-- `BytesFromZZ(bytes, b, n)`: the `n` lowest bytes of `|b|`, least significant first. -/
def bytesFromZZ (b : Int) (n : Nat) : List Nat :=
  (List.range n).map (fun i => b.natAbs / 256 ^ i % 256)

/-- `ZZFromBytes` / `mpz_import(.., -1, 1, 1, 0, ..)`: value of little-endian bytes. -/
def valueOfBytes : List Nat → Int
  | [] => 0
  | b :: bs => b + 256 * valueOfBytes bs

/-- Number of bits of `|b|` (0 for 0). -/
def numBits (b : Int) : Nat := b.natAbs.size

/-- `NumBytes(b)`. -/
def numBytes (b : Int) : Nat := (numBits b + 7) / 8

/-- `conv(mpz_t a, const ZZ &b)` (conv/conv.cc:16-25). -/
def convZZtoMpz (b : Int) : Int :=
  let bytes := bytesFromZZ b (numBytes b)
  let a := valueOfBytes bytes
  if b < 0 then -a else a

/-- `conv(ZZ &a, const mpz_t b)` (conv/conv.cc:38-48): the buffer has
`(mpz_sizeinbase(b, 2) + 7) / 8` bytes, where `mpz_sizeinbase(0, 2) = 1`; `mpz_export` writes the
bytes of `|b|` without leading zeros (none for 0) and sets the count.  Writing more bytes than the
buffer holds would be undefined behaviour. -/
def convMpztoZZ (b : Int) : Res Int :=
  let alloc := (max 1 (numBits b) + 7) / 8
  let n := numBytes b
  if alloc < n then .error .ub
  else
    let a := valueOfBytes (bytesFromZZ b n)
    .ok (if b < 0 then -a else a)

/-- `conv(fmpz_t a, const ZZ &b)` and `conv(ZZ &a, const fmpz_t b)` (conv/conv.cc:27-35, 50-58) go
through an `mpz_t`; FLINT's `fmpz_set_mpz` and `fmpz_get_mpz` keep the value. -/
def convZZtoFmpz (b : Int) : Int := convZZtoMpz b
def convFmpztoZZ (b : Int) : Res Int := convMpztoZZ b

end Verif
