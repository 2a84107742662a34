import Verif.Model.Matrix

/-!
The conversions of conv.h between NTL and FLINT, the conversions between `Vec<int64_t>` and arrays of vec_int64.h, the arrays of
hypersurface_nd/hypersurface_nd.cc:555-656, and the routines of matrix.h for FLINT's matrices over one machine word.
-/

namespace Verif

/-! ### arrays -/

/-- Write the entries of `v`, converted by `f`, to `arr[off], arr[off+1], ...`: `conv(int64_t* result, const Vec<int64_t> &v)`
(vec_int64.h:131-135, `f` the identity) and `conv(fmpz * a, const Vec<T> &b)` (conv.h:37-41). -/
def convToArray {α β : Type} (f : α → β) (arr : List β) (off : Nat) (v : List α) : Res (List β) :=
  forRange v.length arr (fun i arr => do
    let x ← aget v i
    aset arr (off + i) (f x))

/-- Read `len` entries from `arr[off]` on and convert them: `conv(Vec<int64_t> &result, const int64_t array[], size)`
(vec_int64.h:139-144) and `conv(Vec<T> &a, const fmpz * b, len)` (conv.h:70-78). -/
def convFromArray {α β : Type} (f : β → Res α) (arr : List β) (off len : Nat) : Res (List α) :=
  (List.range len).mapM (fun i => do
    let x ← aget arr (off + i)
    f x)

/-- `conv(fmpz * a, const Vec<T> &b)` (conv.h:37-41); `toZ` is `NTL::conv<ZZ>`. -/
def convVecToFmpz {T : Type} (toZ : T → Int) (arr : List Int) (off : Nat) (v : List T) : Res (List Int) :=
  convToArray (fun x => convZZtoFmpz (toZ x)) arr off v

/-- `conv(Vec<T> &a, const fmpz * b, len)` (conv.h:70-78); `ofZ` is NTL's conversion from `ZZ`. -/
def convVecFromFmpz {T : Type} (ofZ : Int → T) (arr : List Int) (off len : Nat) : Res (List T) :=
  convFromArray (fun x => do
    let z ← convFmpztoZZ x
    pure (ofZ z)) arr off len

/-- The loop that fills `u_list`, `v_list` or `G_list` (hypersurface_nd/hypersurface_nd.cc:611-613 and 708-710): vector `j` goes to position `j * k`. -/
def fillLists {α β : Type} (f : α → β) (k : Nat) (vs : List (List α)) (arr : List β) : Res (List β) :=
  forRange vs.length arr (fun j arr => do
    let v ← aget vs j
    convToArray f arr (j * k) v)

/-! ### matrices of FLINT -/

/-- Write one entry of a matrix; `fmpz_mat_entry` and `nmod_mat_entry` compute an address without a check. -/
def CMat.store {R : Type} (A : CMat R) (i j : Nat) (x : R) : Res (CMat R) :=
  if i < A.rows ∧ j < A.cols then .ok ⟨A.rows, A.cols, fun a b => if a = i ∧ b = j then x else A.e a b⟩ else .error .ub

/-- The double loop of the conversions to a matrix that has been allocated. -/
def CMat.fill {R : Type} (A : CMat R) (r c : Nat) (f : Nat → Nat → R) : Res (CMat R) :=
  forRange r A (fun i A => forRange c A (fun j A => A.store i j (f i j)))

/-- `conv(fmpz_mat_t A, const Mat<T> &B)` (conv.h:27-35). -/
def convToFmpzMat {T : Type} (toZ : T → Int) (A : CMat Int) (B : CMat T) : Res (CMat Int) := do
  check (decide (B.rows = A.rows))
  check (decide (B.cols = A.cols))
  A.fill B.rows B.cols (fun i j => convZZtoFmpz (toZ (B.e i j)))

/-- `conv(nmod_mat_t A, const Mat<T> &B)` (conv.h:43-51); `rep` is NTL's representative, `m` the modulus of `A`.  The remainder by
0 is undefined. -/
def convToNmodMat {T : Type} (rep : T → Nat) (m : Nat) (A : CMat Nat) (B : CMat T) : Res (CMat Nat) := do
  check (decide (B.rows = A.rows))
  check (decide (B.cols = A.cols))
  if m = 0 ∧ 0 < B.rows ∧ 0 < B.cols then .error .ub
  else A.fill B.rows B.cols (fun i j => rep (B.e i j) % m)

/-- `conv(Mat<T> &A, const fmpz_mat_t B)` (conv.h:55-68). -/
def convFromFmpzMat {T : Type} [Zero T] (ofZ : Int → T) (B : CMat Int) : Res (CMat T) :=
  forRange B.rows (CMat.mk' B.rows B.cols (fun _ _ => (0 : T))) (fun i A => forRange B.cols A (fun j A => do
    let z ← convFmpztoZZ (B.e i j)
    A.store i j (ofZ z)))

/-- `conv(Mat<T> &A, const nmod_mat_t B)` (conv.h:81-89); `ofW` is NTL's conversion from an unsigned word. -/
def convFromNmodMat {T : Type} [Zero T] (ofW : Nat → T) (B : CMat Nat) : Res (CMat T) :=
  (CMat.mk' B.rows B.cols (fun _ _ => (0 : T))).fill B.rows B.cols (fun i j => ofW (B.e i j))

/-! ### one machine word -/

/-- `nmod_add` of FLINT: asks for reduced arguments. -/
def nmodAdd (m a b : Nat) : Res Nat := if a < m ∧ b < m then .ok ((a + b) % m) else .error .ub

/-- `nmod_mul` of FLINT: asks for reduced arguments. -/
def nmodMul (m a b : Nat) : Res Nat := if a < m ∧ b < m then .ok (a * b % m) else .error .ub

/-- `nmod_sub` of FLINT, one entry of `_nmod_vec_sub`: asks for reduced arguments. -/
def nmodSub (m a b : Nat) : Res Nat := if a < m ∧ b < m then .ok ((a + (m - b)) % m) else .error .ub

/-- `nmod_vec_dot_compat(v1, v2, len, mod, params)` (matrix.h:49-60). -/
def nmodDot (m : Nat) (v w : List Nat) (len : Nat) : Res Nat :=
  forRange len 0 (fun i acc => do
    let x ← aget v i
    let y ← aget w i
    let z ← nmodMul m x y
    nmodAdd m acc z)

/-- `mul(mp_ptr result, const nmod_mat_t A, mp_srcptr v, params)` (matrix.h:112-119).  The matrix is given by its rows. -/
def nmodMatVec (m : Nat) (res : List Nat) (A : List (List Nat)) (cols : Nat) (v : List Nat) : Res (List Nat) :=
  forRange A.length res (fun i res => do
    let row ← aget A i
    let x ← nmodDot m row v cols
    aset res i x)

/-- `_nmod_vec_sub(C, A, B, len, mod)`. -/
def nmodVecSub (m : Nat) (a b : List Nat) (len : Nat) : Res (List Nat) :=
  (List.range len).mapM (fun i => do
    let x ← aget a i
    let y ← aget b i
    nmodSub m x y)

/-- `nmod_mat_sub(C, A, B)` (matrix.h:156-174).  The matrices are given by their rows; `A` and `B` may share memory with `C`: they are
functions of what `C` holds at the moment (`fun _ => A` if they do not, the identity if they are `C`). -/
def nmodMatSub (m r c : Nat) (C : List (List Nat)) (A B : List (List Nat) → List (List Nat)) : Res (List (List Nat)) :=
  if c = 0 then .ok C
  else forRange r C (fun i C => do
    let a ← aget (A C) i
    let b ← aget (B C) i
    let x ← nmodVecSub m a b c
    aset C i x)

end Verif
