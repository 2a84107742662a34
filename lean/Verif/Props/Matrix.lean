import Verif.Lemmas.Matrix
import Mathlib.LinearAlgebra.Matrix.Notation
import Mathlib.LinearAlgebra.Matrix.Trace

/-!
Properties C16-C18: matrix products and conversions (`matrix.h`, `matrix/*.cc`, `conv/conv.cc`).
-/

namespace Verif

open Spec

/-! ### C16: NTL matrices -/

/-- **C16 (`mul_transpose`).**  For every ring and all shapes, `mul_transpose(A, B)` is `A * Bᵀ`;
incompatible shapes stop the program. -/
theorem C16_mul_transpose {R : Type} [CommRing R] {r m c : Nat}
    (A : Matrix (Fin r) (Fin m) R) (B : Matrix (Fin c) (Fin m) R) :
    mulTranspose (CMat.ofMatrix A) (CMat.ofMatrix B) = .ok (CMat.ofMatrix (A * B.transpose)) := by
  unfold mulTranspose
  have h1 : (CMat.ofMatrix A).cols = (CMat.ofMatrix B).cols := rfl
  simp only [h1, decide_true, check_true, Res.bind_ok, Res.pure_eq]
  congr 1
  refine CMat.mk'_eq_ofMatrix (r := r) (c := c) _ _ (fun i j => ?_)
  show sumLoop m _ = _
  rw [sumLoop_eq_sum_fin, Matrix.mul_apply]
  refine Finset.sum_congr rfl (fun k _ => ?_)
  rw [CMat.ofMatrix_e, CMat.ofMatrix_e, Matrix.transpose_apply]

/-- **C16 (`mul_transpose<ZZ_p>`).**  The specialisation that adds up integer representatives
returns the same product of residues. -/
theorem C16_mul_transpose_ZZp {M : Nat} (hM : 0 < M) {r m c : Nat}
    (A : Matrix (Fin r) (Fin m) (ZMod M)) (B : Matrix (Fin c) (Fin m) (ZMod M)) :
    mulTransposeZZp (CMat.ofMatrix A) (CMat.ofMatrix B)
      = .ok (CMat.ofMatrix (A * B.transpose)) := by
  have : NeZero M := ⟨hM.ne'⟩
  unfold mulTransposeZZp
  have h1 : (CMat.ofMatrix A).cols = (CMat.ofMatrix B).cols := rfl
  simp only [h1, decide_true, check_true, Res.bind_ok, Res.pure_eq]
  congr 1
  refine CMat.mk'_eq_ofMatrix (r := r) (c := c) _ _ (fun i j => ?_)
  show ((sumLoop m _ : Int) : ZMod M) = _
  rw [sumLoop_eq_sum_fin, Matrix.mul_apply]
  push_cast
  refine Finset.sum_congr rfl (fun k _ => ?_)
  rw [CMat.ofMatrix_e, CMat.ofMatrix_e, Matrix.transpose_apply]
  simp

/-- **C16 (`transpose_mul_transpose`).**  The result is the transpose of `A * Bᵀ`, as matrix.h
documents. -/
theorem C16_transpose_mul_transpose {R : Type} [CommRing R] {r m c : Nat}
    (A : Matrix (Fin r) (Fin m) R) (B : Matrix (Fin c) (Fin m) R) :
    transposeMulTranspose (CMat.ofMatrix A) (CMat.ofMatrix B)
      = .ok (CMat.ofMatrix (A * B.transpose).transpose) := by
  unfold transposeMulTranspose
  have h1 : (CMat.ofMatrix A).cols = (CMat.ofMatrix B).cols := rfl
  simp only [h1, decide_true, check_true, Res.bind_ok, Res.pure_eq]
  congr 1
  refine CMat.mk'_eq_ofMatrix (r := c) (c := r) _ _ (fun i j => ?_)
  show sumLoop m _ = _
  rw [sumLoop_eq_sum_fin, Matrix.transpose_apply, Matrix.mul_apply]
  refine Finset.sum_congr rfl (fun k _ => ?_)
  rw [CMat.ofMatrix_e, CMat.ofMatrix_e, Matrix.transpose_apply]

/-- **C16 (`transpose_mul_transpose<ZZ_p>`).** -/
theorem C16_transpose_mul_transpose_ZZp {M : Nat} (hM : 0 < M) {r m c : Nat}
    (A : Matrix (Fin r) (Fin m) (ZMod M)) (B : Matrix (Fin c) (Fin m) (ZMod M)) :
    transposeMulTransposeZZp (CMat.ofMatrix A) (CMat.ofMatrix B)
      = .ok (CMat.ofMatrix (A * B.transpose).transpose) := by
  have : NeZero M := ⟨hM.ne'⟩
  unfold transposeMulTransposeZZp
  have h1 : (CMat.ofMatrix A).cols = (CMat.ofMatrix B).cols := rfl
  simp only [h1, decide_true, check_true, Res.bind_ok, Res.pure_eq]
  congr 1
  refine CMat.mk'_eq_ofMatrix (r := c) (c := r) _ _ (fun i j => ?_)
  show ((sumLoop m _ : Int) : ZMod M) = _
  rw [sumLoop_eq_sum_fin, Matrix.transpose_apply, Matrix.mul_apply]
  push_cast
  refine Finset.sum_congr rfl (fun k _ => ?_)
  rw [CMat.ofMatrix_e, CMat.ofMatrix_e, Matrix.transpose_apply]
  simp

/-- **C16 (incompatible shapes).**  All four products, and the trace of a non-square matrix,
stop at their assertion. -/
theorem C16_shape_mismatch_stops {R : Type} [CommRing R] {M : Nat} (A B C : CMat R)
    (A' B' : CMat (ZMod M)) (h : A.cols ≠ B.cols) (h' : A'.cols ≠ B'.cols)
    (hC : C.rows ≠ C.cols) :
    traceM C = .error .assertFail ∧
    mulTranspose A B = .error .assertFail ∧ transposeMulTranspose A B = .error .assertFail ∧
    mulTransposeZZp A' B' = .error .assertFail ∧
    transposeMulTransposeZZp A' B' = .error .assertFail := by
  simp [traceM, mulTranspose, transposeMulTranspose, mulTransposeZZp, transposeMulTransposeZZp,
    h, h', hC]

example : (CMat.ofMatrix (!![1, 2; 3, 4] : Matrix (Fin 2) (Fin 2) ℤ)).cols
    ≠ (CMat.ofMatrix (!![1, 2, 3] : Matrix (Fin 1) (Fin 3) ℤ)).cols := by
  simp [CMat.ofMatrix]

/-- The trace is the trace. -/
theorem C16_trace {R : Type} [CommRing R] {n : Nat} (A : Matrix (Fin n) (Fin n) R) :
    traceM (CMat.ofMatrix A) = .ok A.trace := by
  unfold traceM
  have h1 : (CMat.ofMatrix A).rows = (CMat.ofMatrix A).cols := rfl
  simp only [h1, decide_true, check_true, Res.bind_ok, Res.pure_eq]
  show Except.ok (sumLoop n _) = _
  rw [sumLoop_eq_sum_fin, Matrix.trace]
  congr 1
  refine Finset.sum_congr rfl (fun k _ => ?_)
  rw [CMat.ofMatrix_e]; rfl

/-! ### C16: flat arrays -/

/-- **C16 (flat `mul`, the part that holds).**  The raw `mpz_t` product returns the product when
each of the three strides is harmless: `A` has at most one row or is square, `B` likewise, and the
result likewise.  Missing from the full claim: all other shapes, where it is false
(`C16_mpz_mul_wrong`). -/
theorem C16_mpz_mul_partial {r m c : Nat} (A : Matrix (Fin r) (Fin m) ℤ)
    (B : Matrix (Fin m) (Fin c) ℤ) (a b res : List Int) (ha : RowMajor a A) (hb : RowMajor b B)
    (hres : res.length = r * c)
    (hA : r ≤ 1 ∨ r = m) (hB : m ≤ 1 ∨ m = c) (hC : r ≤ 1 ∨ r = c) :
    ∃ out, mulFlat res a r m b m c = .ok out ∧ RowMajor out (A * B) := by
  unfold mulFlat
  simp only [decide_true, check_true, Res.bind_ok]
  apply fillFlat_rowMajor res r c r hC hres
  intro i j
  rw [dotFlat_ok a b _ _ m (fun k => if h : k < m then A i ⟨k, h⟩ else 0)
    (fun k => if h : k < m then B ⟨k, h⟩ j else 0)]
  · rw [Finset.sum_range, Matrix.mul_apply]
    congr 1
    refine Finset.sum_congr rfl (fun k _ => ?_)
    simp
  · intro k hk
    rw [StrideOk.eq hA i.2, dif_pos hk]
    exact ha.2 i ⟨k, hk⟩
  · intro k hk
    rw [StrideOk.eq hB hk, dif_pos hk]
    exact hb.2 ⟨k, hk⟩ j

example : RowMajor [1, 2, 3, 4] !![1, 2; 3, 4] := by
  refine ⟨rfl, fun i j => ?_⟩
  fin_cases i <;> fin_cases j <;> rfl

/-- **C16 (flat `mul` is wrong in general).**  For a `2 × 3` times a `3 × 3` matrix the call
returns an array which is not the product; for a `2 × 1` times a `1 × 1` matrix it reads out of
bounds. -/
theorem C16_mpz_mul_wrong :
    (∃ (A : Matrix (Fin 2) (Fin 3) ℤ) (B : Matrix (Fin 3) (Fin 3) ℤ) (a b res out : List Int),
      RowMajor a A ∧ RowMajor b B ∧ res.length = 2 * 3 ∧ mulFlat res a 2 3 b 3 3 = .ok out ∧
      ¬ RowMajor out (A * B)) ∧
    (∃ (A : Matrix (Fin 2) (Fin 1) ℤ) (B : Matrix (Fin 1) (Fin 1) ℤ) (a b res : List Int),
      RowMajor a A ∧ RowMajor b B ∧ res.length = 2 * 1 ∧
      mulFlat res a 2 1 b 1 1 = .error .ub) := by
  constructor
  · refine ⟨!![1, 2, 3; 4, 5, 6], 1, [1, 2, 3, 4, 5, 6], [1, 0, 0, 0, 1, 0, 0, 0, 1],
      [0, 0, 0, 0, 0, 0], [1, 2, 3, 4, 5, 0], ?_, ?_, rfl, by decide +kernel, ?_⟩
    · refine ⟨rfl, fun i j => ?_⟩
      fin_cases i <;> fin_cases j <;> rfl
    · refine ⟨rfl, fun i j => ?_⟩
      fin_cases i <;> fin_cases j <;> rfl
    · rintro ⟨-, h⟩
      have := h 1 2
      simp at this
  · refine ⟨!![1; 2], 1, [1, 2], [1], [0, 0], ?_, ?_, rfl, by decide +kernel⟩
    · refine ⟨rfl, fun i j => ?_⟩
      fin_cases i <;> fin_cases j <;> rfl
    · refine ⟨rfl, fun i j => ?_⟩
      fin_cases i <;> fin_cases j <;> rfl

/-- **C16 (flat `mul_transpose`, the part that holds).**  `B` is given as its transpose `Bt`. -/
theorem C16_mpz_mul_transpose_partial {r m c : Nat} (A : Matrix (Fin r) (Fin m) ℤ)
    (Bt : Matrix (Fin c) (Fin m) ℤ) (a b res : List Int) (ha : RowMajor a A) (hb : RowMajor b Bt)
    (hres : res.length = r * c)
    (hA : r ≤ 1 ∨ r = m) (hB : c ≤ 1 ∨ c = m) (hC : r ≤ 1 ∨ r = c) :
    ∃ out, mulTransposeFlat res a r m b m c = .ok out ∧ RowMajor out (A * Bt.transpose) := by
  unfold mulTransposeFlat
  simp only [decide_true, check_true, Res.bind_ok]
  apply fillFlat_rowMajor res r c r hC hres
  intro i j
  rw [dotFlat_ok a b _ _ m (fun k => if h : k < m then A i ⟨k, h⟩ else 0)
    (fun k => if h : k < m then Bt j ⟨k, h⟩ else 0)]
  · rw [Finset.sum_range, Matrix.mul_apply]
    congr 1
    refine Finset.sum_congr rfl (fun k _ => ?_)
    simp
  · intro k hk
    rw [StrideOk.eq hA i.2, dif_pos hk]
    exact ha.2 i ⟨k, hk⟩
  · intro k hk
    rw [StrideOk.eq hB j.2, dif_pos hk]
    exact hb.2 j ⟨k, hk⟩

example : (2 ≤ 1 ∨ 2 = 2) ∧ mulTransposeFlat [0, 0, 0, 0] [1, 2, 3, 4] 2 2 [5, 6, 7, 8] 2 2
    = .ok [17, 23, 39, 53] := by decide +kernel

/-- **C16 (flat `mul_transpose` is wrong in general).** -/
theorem C16_mpz_mul_transpose_wrong :
    ∃ (A : Matrix (Fin 2) (Fin 3) ℤ) (Bt : Matrix (Fin 2) (Fin 3) ℤ) (a b res out : List Int),
      RowMajor a A ∧ RowMajor b Bt ∧ res.length = 2 * 2 ∧
      mulTransposeFlat res a 2 3 b 3 2 = .ok out ∧ ¬ RowMajor out (A * Bt.transpose) := by
  refine ⟨!![1, 2, 3; 4, 5, 6], !![1, 0, 0; 0, 1, 0], [1, 2, 3, 4, 5, 6], [1, 0, 0, 0, 1, 0],
    [0, 0, 0, 0], [1, 3, 3, 5], ?_, ?_, rfl, by decide +kernel, ?_⟩
  · refine ⟨rfl, fun i j => ?_⟩
    fin_cases i <;> fin_cases j <;> rfl
  · refine ⟨rfl, fun i j => ?_⟩
    fin_cases i <;> fin_cases j <;> rfl
  · rintro ⟨-, h⟩
    have := h 1 0
    simp [Matrix.mul_apply, Fin.sum_univ_succ] at this

/-- **C16 (flat scalar `mul`, the part that holds).** -/
theorem C16_mpz_scale_partial {r c : Nat} (s : ℤ) (A : Matrix (Fin r) (Fin c) ℤ)
    (a res : List Int) (ha : RowMajor a A) (hres : res.length = r * c) (hA : r ≤ 1 ∨ r = c) :
    ∃ out, scaleFlat res s a r c = .ok out ∧ RowMajor out (s • A) := by
  unfold scaleFlat
  apply fillFlat_rowMajor res r c r hA hres
  intro i j
  rw [StrideOk.eq hA i.2]
  simp [aget, ha.2 i j]

/-- **C16 (flat scalar `mul` is wrong in general).**  For a `2 × 3` matrix the last entry of the
result is never written. -/
theorem C16_mpz_scale_wrong :
    ∃ (A : Matrix (Fin 2) (Fin 3) ℤ) (a res out : List Int), RowMajor a A ∧ res.length = 2 * 3 ∧
      scaleFlat res 2 a 2 3 = .ok out ∧ ¬ RowMajor out ((2 : ℤ) • A) := by
  refine ⟨!![1, 2, 3; 4, 5, 6], [1, 2, 3, 4, 5, 6], [0, 0, 0, 0, 0, 0], [2, 4, 6, 8, 10, 0], ?_,
    rfl, by decide +kernel, ?_⟩
  · refine ⟨rfl, fun i j => ?_⟩
    fin_cases i <;> fin_cases j <;> rfl
  · rintro ⟨-, h⟩
    have := h 1 2
    simp at this

/-- A single loop writing entry `i` at position `i`. -/
theorem forRange_write (n : Nat) (res : List Int) (hres : res.length = n)
    (cell : Nat → Res Int) (v : Fin n → ℤ) (hcell : ∀ i : Fin n, cell i = .ok (v i)) :
    ∃ out, forRange n res (fun i res => do
      let x ← cell i
      aset res i x) = .ok out ∧ IsVec out v := by
  obtain ⟨out, h1, h2, h3⟩ := forRange_inv (n := n) (s := res)
    (f := fun i res => do
      let x ← cell i
      aset res i x)
    (fun i s => s.length = n ∧ ∀ i' : Fin n, i'.val < i → s[i'.val]? = some (v i'))
    ⟨hres, by intro i h; omega⟩
    (by
      intro i s hi ⟨hl, hs⟩
      refine ⟨s.set i (v ⟨i, hi⟩), ?_, by simpa using hl, ?_⟩
      · have := hcell ⟨i, hi⟩
        simp only at this
        simp only [this, Res.bind_ok]
        exact aset_of_lt _ _ _ (by omega)
      · intro i' h
        by_cases he : i = i'.val
        · subst he; rw [List.getElem?_set_self (by omega)]
        · rw [List.getElem?_set_ne he]; exact hs i' (by omega))
  exact ⟨out, h1, h2, fun i => h3 i i.2⟩

/-- **C16 (flat matrix times vector, the part that holds).** -/
theorem C16_mpz_matvec_partial {r m : Nat} (A : Matrix (Fin r) (Fin m) ℤ) (v : Fin m → ℤ)
    (a b res : List Int) (ha : RowMajor a A) (hb : IsVec b v) (hres : res.length = r)
    (hA : r ≤ 1 ∨ r = m) :
    ∃ out, matVecFlat res a r m b m = .ok out ∧ IsVec out (A.mulVec v) := by
  unfold matVecFlat
  simp only [decide_true, check_true, Res.bind_ok]
  apply forRange_write r res hres (fun i => dotFlat a b (fun j => i * r + j) (fun j => j) m)
  intro i
  rw [dotFlat_ok a b _ _ m (fun k => if h : k < m then A i ⟨k, h⟩ else 0)
    (fun k => if h : k < m then v ⟨k, h⟩ else 0)]
  · rw [Finset.sum_range, Matrix.mulVec, dotProduct]
    congr 1
    refine Finset.sum_congr rfl (fun k _ => ?_)
    simp
  · intro k hk
    rw [StrideOk.eq hA i.2, dif_pos hk]
    exact ha.2 i ⟨k, hk⟩
  · intro k hk
    rw [dif_pos hk]
    exact hb.2 ⟨k, hk⟩

example : IsVec [5, 6] ![5, 6] := by
  refine ⟨rfl, fun i => ?_⟩
  fin_cases i <;> rfl

/-- **C16 (flat matrix times vector is wrong in general).** -/
theorem C16_mpz_matvec_wrong :
    ∃ (A : Matrix (Fin 2) (Fin 3) ℤ) (v : Fin 3 → ℤ) (a b res out : List Int),
      RowMajor a A ∧ IsVec b v ∧ res.length = 2 ∧ matVecFlat res a 2 3 b 3 = .ok out ∧
      ¬ IsVec out (A.mulVec v) := by
  refine ⟨!![1, 2, 3; 4, 5, 6], ![1, 0, 0], [1, 2, 3, 4, 5, 6], [1, 0, 0], [0, 0], [1, 3], ?_, ?_,
    rfl, by decide +kernel, ?_⟩
  · refine ⟨rfl, fun i j => ?_⟩
    fin_cases i <;> fin_cases j <;> rfl
  · refine ⟨rfl, fun i => ?_⟩
    fin_cases i <;> rfl
  · rintro ⟨-, h⟩
    have := h 1
    simp [Matrix.mulVec, dotProduct, Fin.sum_univ_succ] at this

/-- **C16 (flat arrays, sizes that do not match).**  The five routines with an assertion stop at it, before anything is read or
written. -/
theorem C16_mpz_mismatch (res a b : List Int) (r c r' c' : Nat) :
    (c ≠ r' → mulFlat res a r c b r' c' = .error .assertFail ∧ mulTransposeFlat res a r c b r' c' = .error .assertFail) ∧
    (r' ≠ c → matVecFlat res a r c b r' = .error .assertFail) ∧
    (c ≠ c' → addVecFlat res a c b c' = .error .assertFail ∧ dotVecFlat a c b c' = .error .assertFail) := by
  refine ⟨fun h => ⟨?_, ?_⟩, fun h => ?_, fun h => ⟨?_, ?_⟩⟩
  · rw [mulFlat, decide_eq_false h]; rfl
  · rw [mulTransposeFlat, decide_eq_false h]; rfl
  · rw [matVecFlat, decide_eq_false h]; rfl
  · rw [addVecFlat, decide_eq_false h]; rfl
  · rw [dotVecFlat, decide_eq_false h]; rfl

example : matVecFlat [0, 0] [1, 2, 3, 4] 2 2 [1, 1, 1] 3 = .error .assertFail ∧
    matVecFlat [0, 0] [1, 2, 3, 4] 2 2 [1, 1, 1] 2 = .ok [3, 7] := by decide +kernel

/-- **C16 (vector variants).**  Scaling a vector, adding two vectors (the overload which is also
called `mul`) and the scalar product are right for every length. -/
theorem C16_mpz_vec {n : Nat} (s : ℤ) (u v : Fin n → ℤ) (a b res : List Int) (ha : IsVec a u)
    (hb : IsVec b v) (hres : res.length = n) :
    (∃ out, scaleVecFlat res s a n = .ok out ∧ IsVec out (s • u)) ∧
    (∃ out, addVecFlat res a n b n = .ok out ∧ IsVec out (u + v)) ∧
    dotVecFlat a n b n = .ok (∑ i, u i * v i) := by
  refine ⟨?_, ?_, ?_⟩
  · obtain ⟨out, h1, h2⟩ := forRange_write n res hres
      (fun i => do let x ← aget a i; pure (s * x)) (s • u) (by intro i; simp [aget, ha.2 i])
    refine ⟨out, ?_, h2⟩
    rw [← h1]; unfold scaleVecFlat
    congr 1; funext i r
    cases aget a i <;> rfl
  · obtain ⟨out, h1, h2⟩ := forRange_write n res hres
      (fun i => do let x ← aget a i; let y ← aget b i; pure (x + y)) (u + v)
      (by intro i; simp [aget, ha.2 i, hb.2 i])
    refine ⟨out, ?_, h2⟩
    rw [← h1]; unfold addVecFlat
    simp only [decide_true, check_true, Res.bind_ok]
    congr 1; funext i r
    cases aget a i <;> cases aget b i <;> rfl
  · unfold dotVecFlat
    simp only [decide_true, check_true, Res.bind_ok]
    rw [dotFlat_ok a b _ _ n (fun k => if h : k < n then u ⟨k, h⟩ else 0)
      (fun k => if h : k < n then v ⟨k, h⟩ else 0), Finset.sum_range]
    · congr 1
      refine Finset.sum_congr rfl (fun k _ => ?_)
      simp
    · intro k hk; rw [dif_pos hk]; exact ha.2 ⟨k, hk⟩
    · intro k hk; rw [dif_pos hk]; exact hb.2 ⟨k, hk⟩

theorem dotVecFmpz_eq {n : Nat} (u v : Fin (n + 1) → ℤ) (a b : List Int)
    (ha : ∀ i : Fin (n + 1), a[i.val]? = some (u i)) (hb : ∀ i : Fin (n + 1), b[i.val]? = some (v i)) :
    dotVecFmpz a b (n + 1) = .ok (∑ i, u i * v i) := by
  unfold dotVecFmpz
  have h0 := ha 0; have h0' := hb 0
  simp only [Fin.val_zero] at h0 h0'
  simp only [aget, h0, h0', Res.bind_ok, Nat.add_sub_cancel]
  obtain ⟨s, e, p⟩ := forRange_inv (n := n) (s := u 0 * v 0)
    (f := fun i acc => do
      let x ← aget a (i + 1)
      let y ← aget b (i + 1)
      pure (acc + x * y))
    (fun i s => s = ∑ k ∈ Finset.range (i + 1), (if h : k < n + 1 then u ⟨k, h⟩ * v ⟨k, h⟩ else 0))
    (by simp)
    (by
      intro i s hi hs
      have h1 := ha ⟨i + 1, by omega⟩; have h2 := hb ⟨i + 1, by omega⟩
      simp only at h1 h2
      refine ⟨s + u ⟨i + 1, by omega⟩ * v ⟨i + 1, by omega⟩, ?_, ?_⟩
      · simp only [aget, h1, h2, Res.bind_ok, Res.pure_eq]
      · rw [Finset.sum_range_succ, ← hs, dif_pos (by omega)])
  simp only [aget] at e
  rw [e, p, Finset.sum_range]
  congr 1
  exact Finset.sum_congr rfl (fun k _ => by rw [dif_pos k.2])

/-- **C16 (FLINT variants).**  Scalar product and matrix times vector over `fmpz` are right for
every positive length; with length 0 they read an entry that does not exist. -/
theorem C16_fmpz {r n : Nat} (A : Matrix (Fin r) (Fin (n + 1)) ℤ) (v : Fin (n + 1) → ℤ)
    (rows : List (List Int)) (b res : List Int) (hr : rows.length = r)
    (hrows : ∀ i : Fin r, ∃ row, rows[i.val]? = some row ∧ IsVec row (A i)) (hb : IsVec b v)
    (hres : res.length = r) :
    (∃ out, matVecFmpz res rows (n + 1) b = .ok out ∧ IsVec out (A.mulVec v)) ∧
    (∀ (u w : Fin (n + 1) → ℤ) (x y : List Int), IsVec x u → IsVec y w →
      dotVecFmpz x y (n + 1) = .ok (∑ i, u i * w i)) ∧
    dotVecFmpz [] [] 0 = .error .ub := by
  refine ⟨?_, fun u w x y hx hy => dotVecFmpz_eq u w x y hx.2 hy.2, rfl⟩
  unfold matVecFmpz
  rw [hr]
  obtain ⟨out, h1, h2⟩ := forRange_write r res hres
    (fun i => do let row ← aget rows i; dotVecFmpz row b (n + 1)) (A.mulVec v)
    (by
      intro i
      obtain ⟨row, e1, e2⟩ := hrows i
      simp only [aget, e1, Res.bind_ok]
      rw [dotVecFmpz_eq (A i) v row b e2.2 hb.2]
      rfl)
  refine ⟨out, ?_, h2⟩
  rw [← h1]
  congr 1; funext i res
  cases aget rows i <;> rfl

example : matVecFmpz [0, 0] [[1, 2, 3], [4, 5, 6]] 3 [1, 0, 1] = .ok [4, 10] := by decide +kernel

/-! ### C17 -/

/-- **C17.**  Converting an integer of any size and sign to `mpz`/`fmpz` and back returns the
same integer, in both directions, and the byte buffer is never overrun. -/
theorem C17_bigint_round_trip (x : ℤ) :
    convMpztoZZ (convZZtoMpz x) = .ok x ∧ convZZtoMpz x = x ∧ convMpztoZZ x = .ok x ∧
    convFmpztoZZ (convZZtoFmpz x) = .ok x ∧ convZZtoFmpz x = x ∧ convFmpztoZZ x = .ok x := by
  simp [convZZtoFmpz, convFmpztoZZ, convZZtoMpz_eq, convMpztoZZ_eq]

example : convMpztoZZ (convZZtoMpz (-(2 ^ 100 + 12345))) = .ok (-(2 ^ 100 + 12345)) := by
  decide +kernel

/-- **C17 (bytes).**  The buffer written holds base-256 digits of the magnitude: each is a byte
and together they determine it. -/
theorem C17_bytes (x : ℤ) :
    (∀ b ∈ bytesFromZZ x (numBytes x), b < 256) ∧
    valueOfBytes (bytesFromZZ x (numBytes x)) = |x| := by
  constructor
  · intro b hb
    simp only [bytesFromZZ, List.mem_map] at hb
    obtain ⟨i, -, rfl⟩ := hb
    exact Nat.mod_lt _ (by norm_num)
  · unfold bytesFromZZ
    rw [valueOfBytes_range, Nat.mod_eq_of_lt (natAbs_lt_numBytes x)]
    exact Int.natCast_natAbs x

/-! ### C18 -/

theorem mapM_ok {α β : Type} (l : List α) (f : α → Res β) (g : α → β) (h : ∀ x ∈ l, f x = .ok (g x)) :
    l.mapM f = .ok (l.map g) := by
  induction l with
  | nil => rfl
  | cons x l ih =>
    rw [List.mapM_cons, h x (by simp), ih (fun y hy => h y (List.mem_cons_of_mem _ hy))]
    rfl

/-- **C18 (the part that holds).**  If there are at most as many columns as rows (or one row at
most), and the array has at least `rows * rows` (or `cols`) cells, then converting to the array and
back gives every entry.  Missing: more columns than rows (`C18_round_trip_wide_wrong`), and arrays
of only `rows * cols` cells (`C18_tall_overruns`). -/
theorem C18_round_trip_partial (B : CMat Int) (arr : List Int)
    (hs : B.cols ≤ B.rows ∧ B.rows * B.rows ≤ arr.length ∨ B.rows ≤ 1 ∧ B.cols ≤ arr.length) :
    ∃ out, convToFlat arr B = .ok out ∧
      convFromFlat out B.rows B.cols
        = .ok ((List.range B.rows).map (fun i => (List.range B.cols).map (fun j => B.e i j))) := by
  obtain ⟨out, h1, h2, h3⟩ := fillFlat_ok arr B.rows B.cols (fun i j => i * B.rows + j)
    (fun i j => .ok (B.e i j)) B.e (fun _ _ _ _ => rfl)
    (by
      intro i j hi hj
      show i * B.rows + j < arr.length
      rcases hs with hs | hs
      · exact lt_of_lt_of_le (rowMajor_lt hi (by omega)) hs.2
      · have : i = 0 := by omega
        subst this; omega)
    (by
      intro i j i' j' hi hj hi' hj' h
      rcases hs with hs | hs
      · exact rowMajor_inj (by omega) (by omega) h
      · have h1 : i = 0 := by omega
        have h2 : i' = 0 := by omega
        subst h1 h2; omega)
  refine ⟨out, h1, ?_⟩
  unfold convFromFlat
  apply mapM_ok
  intro i hi
  apply mapM_ok
  intro j hj
  rw [List.mem_range] at hi hj
  simp [aget, h3 i j hi hj]

example : convToFlat [0, 0, 0, 0] (CMat.ofMatrix !![1, 2; 3, 4]) = .ok [1, 2, 3, 4] := by
  decide +kernel

/-- **C18 (square matrices in full).**  For every square matrix and the array of exactly
`rows * cols` cells the round trip is exact. -/
theorem C18_round_trip_square {n : Nat} (B : Matrix (Fin n) (Fin n) ℤ) (arr : List Int)
    (ha : arr.length = n * n) :
    ∃ out, convToFlat arr (CMat.ofMatrix B) = .ok out ∧ RowMajor out B ∧
      convFromFlat out n n = .ok (List.ofFn (fun i => List.ofFn (fun j => B i j))) := by
  obtain ⟨out, h1, h2⟩ := C18_round_trip_partial (CMat.ofMatrix B) arr
    (Or.inl ⟨le_rfl, by show n * n ≤ _; omega⟩)
  obtain ⟨out', h1', h2'⟩ := fillFlat_rowMajor arr n n n (Or.inr rfl) ha
    (fun i j => .ok ((CMat.ofMatrix B).e i j)) B (by intro i j; rw [CMat.ofMatrix_e])
  have he : out = out' := by
    have : (Except.ok out : Res (List Int)) = .ok out' := by rw [← h1, ← h1']; rfl
    simpa using this
  refine ⟨out, h1, he ▸ h2', ?_⟩
  show convFromFlat out (CMat.ofMatrix B).rows (CMat.ofMatrix B).cols = _
  rw [h2]
  congr 1
  show (List.range n).map (fun i => (List.range n).map (fun j => (CMat.ofMatrix B).e i j)) = _
  apply List.ext_getElem
  · simp
  · intro i h1 h2
    simp only [List.getElem_map, List.getElem_range, List.getElem_ofFn]
    apply List.ext_getElem
    · simp
    · intro j h3 h4
      simp only [List.length_map, List.length_range] at h1 h3
      simp only [List.getElem_map, List.getElem_range, List.getElem_ofFn]
      exact CMat.ofMatrix_e B ⟨i, h1⟩ ⟨j, h3⟩

/-- **C18 (wide matrices).**  For every shape with at least two rows and more columns than rows,
and every array, there is a matrix that the round trip does not give back. -/
theorem C18_round_trip_wide_wrong (r c : Nat) (hr : 2 ≤ r) (hc : r < c) (arr : List Int) :
    ∃ B : CMat Int, B.rows = r ∧ B.cols = c ∧
      ∀ out, convToFlat arr B = .ok out →
        convFromFlat out r c ≠
          .ok ((List.range r).map (fun i => (List.range c).map (fun j => B.e i j))) := by
  refine ⟨CMat.mk' r c (fun i j => if i = 0 ∧ j = r then 1 else 0), rfl, rfl, ?_⟩
  intro out _ hback
  -- entries (0, r) and (1, 0) are read from the same cell
  unfold convFromFlat at hback
  have read : ∀ i j, i < r → j < c →
      aget out (i * r + j) = .ok ((CMat.mk' r c (fun i j => if i = 0 ∧ j = r then (1 : ℤ) else 0)).e i j) := by
    have key : ∀ {α β : Type} (l : List α) (f : α → Res β) (ys : List β), l.mapM f = .ok ys →
        ∀ (k : Nat) (hk : k < l.length), ∃ y, ys[k]? = some y ∧ f l[k] = .ok y := by
      intro α β l
      induction l with
      | nil => intro f ys _ k hk; simp at hk
      | cons x l ih =>
        intro f ys h k hk
        rw [List.mapM_cons] at h
        obtain ⟨y, hy, h⟩ := Res.bind_eq_ok.1 h
        obtain ⟨ys', hys', h⟩ := Res.bind_eq_ok.1 h
        simp only [Res.pure_eq, Except.ok.injEq] at h
        subst h
        cases k with
        | zero => exact ⟨y, by simp, by simpa using hy⟩
        | succ k =>
          obtain ⟨z, hz, hz'⟩ := ih f ys' hys' k (by simpa using hk)
          exact ⟨z, by simpa using hz, by simpa using hz'⟩
    intro i j hi hj
    obtain ⟨row, h1, h2⟩ := key _ _ _ hback i (by simpa using hi)
    simp only [List.getElem_range] at h2
    obtain ⟨y, h3, h4⟩ := key _ _ _ h2 j (by simpa using hj)
    simp only [List.getElem_range] at h4
    rw [h4]
    rw [List.getElem?_map, List.getElem?_range hi] at h1
    simp only [Option.map_some, Option.some.injEq] at h1
    rw [← h1, List.getElem?_map, List.getElem?_range hj] at h3
    simp only [Option.map_some, Option.some.injEq] at h3
    rw [h3]
  have e1 := read 0 r (by omega) hc
  have e2 := read 1 0 (by omega) (by omega)
  simp only [Nat.zero_mul, Nat.zero_add, Nat.one_mul, Nat.add_zero] at e1 e2
  rw [e1] at e2
  have hA : 0 < r ∧ r < c := ⟨by omega, hc⟩
  have hB : 1 < r ∧ 0 < c := ⟨by omega, by omega⟩
  simp [CMat.mk', hA, hB] at e2

example : (2 : Nat) ≤ 2 ∧ 2 < 3 := by decide

/-- **C18 (tall matrices in an array of `rows * cols` cells).**  For every shape with
`0 < cols < rows`, the conversion writes past the end. -/
theorem C18_tall_overruns (B : CMat Int) (arr : List Int) (h0 : 0 < B.cols) (h1 : B.cols < B.rows)
    (ha : arr.length = B.rows * B.cols) : convToFlat arr B = .error .ub := by
  -- the first row that does not fit
  have hlast : B.rows * B.cols ≤ (B.rows - 1) * B.rows := by
    obtain ⟨r, hr⟩ : ∃ r, B.rows = r + 1 := ⟨B.rows - 1, by omega⟩
    rw [hr, Nat.add_sub_cancel, Nat.mul_comm]
    calc B.cols * (r + 1) ≤ r * (r + 1) := Nat.mul_le_mul_right _ (by omega)
      _ = r * (r + 1) := rfl
  -- among all rows take the least index at which some write fails
  unfold convToFlat fillFlat
  have hex : ∃ k, k < B.rows ∧ arr.length ≤ k * B.rows + (B.cols - 1) :=
    ⟨B.rows - 1, by omega, by omega⟩
  classical
  have hk := Nat.find_spec hex
  have hmin : ∀ i, i < Nat.find hex → ∀ j, j < B.cols → i * B.rows + j < arr.length := by
    intro i hi j hj
    have := Nat.find_min hex hi
    by_contra hcon
    apply this
    exact ⟨by omega, by omega⟩
  apply forRange_error (Nat.find hex) .ub hk.1 (fun _ s => s.length = arr.length) rfl
  · intro i s hi hs
    obtain ⟨s', e, p⟩ := forRange_inv (n := B.cols) (s := s)
      (f := fun j res => do
        let x ← (.ok (B.e i j) : Res Int)
        aset res (i * B.rows + j) x)
      (fun _ s => s.length = arr.length) hs
      (by
        intro j s hj hs
        refine ⟨s.set (i * B.rows + j) (B.e i j), ?_, by simpa using hs⟩
        simp only [Res.bind_ok]
        exact aset_of_lt _ _ _ (by rw [hs]; exact hmin i hi j hj))
    exact ⟨s', e, p⟩
  · intro s hs
    have hex2 : ∃ j, j < B.cols ∧ arr.length ≤ Nat.find hex * B.rows + j :=
      ⟨B.cols - 1, by omega, hk.2⟩
    have hj := Nat.find_spec hex2
    apply forRange_error (Nat.find hex2) .ub hj.1 (fun _ s => s.length = arr.length) hs
    · intro j s hj' hs
      refine ⟨s.set (Nat.find hex * B.rows + j) (B.e (Nat.find hex) j), ?_, by simpa using hs⟩
      simp only [Res.bind_ok]
      apply aset_of_lt
      rw [hs]
      by_contra hcon
      exact Nat.find_min hex2 hj' ⟨by omega, by omega⟩
    · intro s hs
      simp only [Res.bind_ok]
      exact aset_ub _ _ _ (by rw [hs]; exact hj.2)

example : convToFlat [0, 0, 0, 0, 0, 0] (CMat.ofMatrix !![1, 2; 3, 4; 5, 6]) = .error .ub := by
  decide +kernel

end Verif
