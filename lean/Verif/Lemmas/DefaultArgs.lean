import Verif.Model.DefaultArgs
import Verif.Lemmas.CharpolyFrob

namespace Verif

open Spec

/-- What the theorem on `default_args` says about one row `a` used for `(n, d)` and the prime `p`. -/
def RowGood (p : Nat) (n d : Int) (a : DefaultArgs) : Prop :=
  0 < a.precision ∧ (a.N.length : ℤ) = n ∧ (∀ x ∈ a.N, 0 ≤ x ∧ x ≤ a.precision) ∧
  ∃ b : Nat, 0 < b ∧ a.charpolyPrec.length = b + 1 ∧
    d * b = (d - 1) ^ (n + 1).toNat + (-1) ^ (n + 1).toNat * (d - 1) ∧
    (∀ x ∈ a.charpolyPrec, 1 ≤ x) ∧
    EnoughPrec b p (n - 1).toNat (fun i => a.charpolyPrec.getD i 0)

/-- Decidable check of one row, for all `p >= lo` at once. -/
def rowCheck (lo : Nat) (n d : Int) (a : DefaultArgs) : Bool :=
  let b := a.charpolyPrec.length - 1
  let dim := (n - 1).toNat
  decide (1 ≤ lo ∧ 0 < b ∧ a.charpolyPrec.length = b + 1 ∧ 0 < a.precision ∧ (a.N.length : ℤ) = n) &&
  a.N.all (fun x => decide (0 ≤ x ∧ x ≤ a.precision)) &&
  decide (d * b = (d - 1) ^ (n + 1).toNat + (-1) ^ (n + 1).toNat * (d - 1)) &&
  a.charpolyPrec.all (fun x => decide (1 ≤ x)) &&
  (List.range b).all (fun k =>
    let x := sharedPrec b dim (fun i => a.charpolyPrec.getD i 0) (b - (k + 1))
    decide (0 ≤ x ∧ dim * (k + 1) ≤ 2 * x.toNat ∧
      4 * b ^ 2 < (k + 1) ^ 2 * lo ^ (2 * x.toNat - dim * (k + 1))))

theorem row_good (lo p : Nat) (n d : Int) (a : DefaultArgs) (h : rowCheck lo n d a = true)
    (hp : lo ≤ p) : RowGood p n d a := by
  unfold rowCheck at h
  simp only [Bool.and_eq_true, decide_eq_true_eq, List.all_eq_true, List.mem_range] at h
  obtain ⟨⟨⟨⟨⟨h0, h1, h2, h3, h4⟩, h5⟩, h6⟩, h7⟩, h8⟩ := h
  refine ⟨h3, h4, h5, a.charpolyPrec.length - 1, h1, h2, h6, h7, ?_⟩
  intro k hk1 hk2
  rw [← precAssert_iff]
  have := h8 (k - 1) (by omega)
  rw [show k - 1 + 1 = k by omega] at this
  obtain ⟨g0, g1, g2⟩ := this
  unfold precAssert
  rw [decide_eq_true_iff]
  refine ⟨g0, ?_⟩
  generalize (sharedPrec (a.charpolyPrec.length - 1) (n - 1).toNat
    (fun i => a.charpolyPrec.getD i 0) (a.charpolyPrec.length - 1 - k)).toNat = x at g1 g2 ⊢
  have e1 : 2 * x = (2 * x - (n - 1).toNat * k) + (n - 1).toNat * k := by omega
  rw [e1, pow_add, ← mul_assoc]
  apply Nat.mul_lt_mul_of_pos_right _ (Nat.pow_pos (by omega))
  calc _ < _ := g2
    _ ≤ _ := Nat.mul_le_mul_left _ (Nat.pow_le_pow_left hp _)

/-- The decidable reason why `charpoly_frob` cannot return on a row at the prime `p`. -/
def rowFails (p : Nat) (n : Int) (a : DefaultArgs) : Bool :=
  let b := a.charpolyPrec.length - 1
  let dim := (n - 1).toNat
  (List.range b).any (fun k =>
    !precAssert p b dim (sharedPrec b dim (fun i => a.charpolyPrec.getD i 0) (b - (k + 1))) (k + 1))

/-! ### the rows, one pair `(n, d)` at a time -/

theorem da_2_3 (p : Int) : defaultArgs p 2 3 =
    if p < 5 then
      .ok ⟨5, [2, 3], [2, 2, 2]⟩
    else if 5 ≤ p ∧ p < 17 then
      .ok ⟨3, [2, 2], [2, 2, 2]⟩
    else if 17 ≤ p then
      .ok ⟨1, [0, 1], [3, 1, 1]⟩
    else .error .abort := rfl

theorem good_2_3 (p : Nat) (hp : 3 ≤ p) (a : DefaultArgs) (h : defaultArgs p 2 3 = .ok a) :
    RowGood p 2 3 a := by
  rw [da_2_3] at h
  split_ifs at h
  · cases h; exact row_good 3 p _ _ _ (by decide +kernel) (by omega)
  · cases h; exact row_good 5 p _ _ _ (by decide +kernel) (by omega)
  · cases h; exact row_good 17 p _ _ _ (by decide +kernel) (by omega)

theorem returns_2_3 (p : Int) : ∃ a, defaultArgs p 2 3 = .ok a := by
  rw [da_2_3]
  split_ifs <;> first | exact ⟨_, rfl⟩ | (exfalso; omega)

theorem da_2_4 (p : Int) : defaultArgs p 2 4 =
    if p < 5 then
      .ok ⟨7, [4, 4], [5, 4, 3, 3, 3, 3, 3]⟩
    else if 5 ≤ p ∧ p < 17 then
      .ok ⟨5, [3, 3], [5, 4, 3, 3, 3, 3, 3]⟩
    else if 17 ≤ p then
      .ok ⟨3, [2, 2], [4, 3, 2, 2, 2, 2, 2]⟩
    else .error .abort := rfl

theorem good_2_4 (p : Nat) (hp : 3 ≤ p) (a : DefaultArgs) (h : defaultArgs p 2 4 = .ok a) :
    RowGood p 2 4 a := by
  rw [da_2_4] at h
  split_ifs at h
  · cases h; exact row_good 3 p _ _ _ (by decide +kernel) (by omega)
  · cases h; exact row_good 5 p _ _ _ (by decide +kernel) (by omega)
  · cases h; exact row_good 17 p _ _ _ (by decide +kernel) (by omega)

theorem returns_2_4 (p : Int) : ∃ a, defaultArgs p 2 4 = .ok a := by
  rw [da_2_4]
  split_ifs <;> first | exact ⟨_, rfl⟩ | (exfalso; omega)

theorem da_2_5 (p : Int) : defaultArgs p 2 5 =
    if p < 5 then
      .ok ⟨12, [6, 6], [10, 9, 8, 7, 6, 5, 5, 5, 5, 5, 5, 5, 5]⟩
    else if 5 ≤ p ∧ p < 7 then
      .ok ⟨9, [4, 5], [9, 8, 7, 6, 5, 4, 4, 4, 4, 4, 4, 4, 4]⟩
    else if 7 ≤ p then
      .ok ⟨7, [4, 4], [9, 8, 7, 6, 5, 4, 4, 4, 4, 4, 4, 4, 4]⟩
    else .error .abort := rfl

theorem good_2_5 (p : Nat) (hp : 3 ≤ p) (a : DefaultArgs) (h : defaultArgs p 2 5 = .ok a) :
    RowGood p 2 5 a := by
  rw [da_2_5] at h
  split_ifs at h
  · cases h; exact row_good 3 p _ _ _ (by decide +kernel) (by omega)
  · cases h; exact row_good 5 p _ _ _ (by decide +kernel) (by omega)
  · cases h; exact row_good 7 p _ _ _ (by decide +kernel) (by omega)

theorem returns_2_5 (p : Int) : ∃ a, defaultArgs p 2 5 = .ok a := by
  rw [da_2_5]
  split_ifs <;> first | exact ⟨_, rfl⟩ | (exfalso; omega)

theorem da_2_6 (p : Int) : defaultArgs p 2 6 =
    if p < 5 then
      .ok ⟨19, [8, 9], [16, 15, 14, 13, 12, 11, 10, 9, 8, 7, 7, 7, 7, 7, 7, 7, 7, 7, 7, 7, 7]⟩
    else if 5 ≤ p ∧ p < 7 then
      .ok ⟨13, [7, 7], [15, 14, 13, 12, 11, 10, 9, 8, 7, 6, 6, 6, 6, 6, 6, 6, 6, 6, 6, 6, 6]⟩
    else if 7 ≤ p ∧ p < 11 then
      .ok ⟨13, [6, 7], [15, 14, 13, 12, 11, 10, 9, 8, 7, 6, 6, 6, 6, 6, 6, 6, 6, 6, 6, 6, 6]⟩
    else if 11 ≤ p then
      .ok ⟨11, [6, 6], [15, 14, 13, 12, 11, 10, 9, 8, 7, 6, 6, 6, 6, 6, 6, 6, 6, 6, 6, 6, 6]⟩
    else .error .abort := rfl

theorem good_2_6 (p : Nat) (hp : 3 ≤ p) (a : DefaultArgs) (h : defaultArgs p 2 6 = .ok a) :
    RowGood p 2 6 a := by
  rw [da_2_6] at h
  split_ifs at h
  · cases h; exact row_good 3 p _ _ _ (by decide +kernel) (by omega)
  · cases h; exact row_good 5 p _ _ _ (by decide +kernel) (by omega)
  · cases h; exact row_good 7 p _ _ _ (by decide +kernel) (by omega)
  · cases h; exact row_good 11 p _ _ _ (by decide +kernel) (by omega)

theorem returns_2_6 (p : Int) : ∃ a, defaultArgs p 2 6 = .ok a := by
  rw [da_2_6]
  split_ifs <;> first | exact ⟨_, rfl⟩ | (exfalso; omega)

theorem da_2_7 (p : Int) : defaultArgs p 2 7 =
    if p < 5 then
      .ok ⟨23, [11, 11], [23, 22, 21, 20, 19, 18, 17, 16, 15, 14, 13, 12, 11, 10, 9, 9, 9, 9, 9,
        9, 9, 9, 9, 9, 9, 9, 9, 9, 9, 9, 9]⟩
    else if 5 ≤ p ∧ p < 7 then
      .ok ⟨20, [10, 10], [23, 22, 21, 20, 19, 18, 17, 16, 15, 14, 13, 12, 11, 10, 9, 9, 9, 9, 9,
        9, 9, 9, 9, 9, 9, 9, 9, 9, 9, 9, 9]⟩
    else if 7 ≤ p ∧ p < 11 then
      .ok ⟨19, [10, 10], [23, 22, 21, 20, 19, 18, 17, 16, 15, 14, 13, 12, 11, 10, 9, 9, 9, 9, 9,
        9, 9, 9, 9, 9, 9, 9, 9, 9, 9, 9, 9]⟩
    else if 11 ≤ p ∧ p < 17 then
      .ok ⟨17, [9, 9], [23, 22, 21, 20, 19, 18, 17, 16, 15, 14, 13, 12, 11, 10, 9, 9, 9, 9, 9, 9,
        9, 9, 9, 9, 9, 9, 9, 9, 9, 9, 9]⟩
    else if 17 ≤ p then
      .ok ⟨15, [8, 8], [22, 21, 20, 19, 18, 17, 16, 15, 14, 13, 12, 11, 10, 9, 8, 8, 8, 8, 8, 8,
        8, 8, 8, 8, 8, 8, 8, 8, 8, 8, 8]⟩
    else .error .abort := rfl

theorem good_2_7 (p : Nat) (hp : 3 ≤ p) (a : DefaultArgs) (h : defaultArgs p 2 7 = .ok a) :
    RowGood p 2 7 a := by
  rw [da_2_7] at h
  split_ifs at h
  · cases h; exact row_good 3 p _ _ _ (by decide +kernel) (by omega)
  · cases h; exact row_good 5 p _ _ _ (by decide +kernel) (by omega)
  · cases h; exact row_good 7 p _ _ _ (by decide +kernel) (by omega)
  · cases h; exact row_good 11 p _ _ _ (by decide +kernel) (by omega)
  · cases h; exact row_good 17 p _ _ _ (by decide +kernel) (by omega)

theorem returns_2_7 (p : Int) : ∃ a, defaultArgs p 2 7 = .ok a := by
  rw [da_2_7]
  split_ifs <;> first | exact ⟨_, rfl⟩ | (exfalso; omega)

theorem da_2_8 (p : Int) : defaultArgs p 2 8 =
    if p < 5 then
      .ok ⟨30, [14, 14], [32, 31, 30, 29, 28, 27, 26, 25, 24, 23, 22, 21, 20, 19, 18, 17, 16, 15,
        14, 13, 12, 12, 12, 12, 12, 12, 12, 12, 12, 12, 12, 12, 12, 12, 12, 12, 12, 12, 12, 12,
        12, 12, 12]⟩
    else if 5 ≤ p ∧ p < 7 then
      .ok ⟨26, [13, 13], [32, 31, 30, 29, 28, 27, 26, 25, 24, 23, 22, 21, 20, 19, 18, 17, 16, 15,
        14, 13, 12, 12, 12, 12, 12, 12, 12, 12, 12, 12, 12, 12, 12, 12, 12, 12, 12, 12, 12, 12,
        12, 12, 12]⟩
    else if 7 ≤ p ∧ p < 13 then
      .ok ⟨25, [13, 13], [32, 31, 30, 29, 28, 27, 26, 25, 24, 23, 22, 21, 20, 19, 18, 17, 16, 15,
        14, 13, 12, 12, 12, 12, 12, 12, 12, 12, 12, 12, 12, 12, 12, 12, 12, 12, 12, 12, 12, 12,
        12, 12, 12]⟩
    else if 13 ≤ p ∧ p < 17 then
      .ok ⟨25, [12, 13], [32, 31, 30, 29, 28, 27, 26, 25, 24, 23, 22, 21, 20, 19, 18, 17, 16, 15,
        14, 13, 12, 12, 12, 12, 12, 12, 12, 12, 12, 12, 12, 12, 12, 12, 12, 12, 12, 12, 12, 12,
        12, 12, 12]⟩
    else if 17 ≤ p then
      .ok ⟨21, [11, 11], [31, 30, 29, 28, 27, 26, 25, 24, 23, 22, 21, 20, 19, 18, 17, 16, 15, 14,
        13, 12, 11, 11, 11, 11, 11, 11, 11, 11, 11, 11, 11, 11, 11, 11, 11, 11, 11, 11, 11, 11,
        11, 11, 11]⟩
    else .error .abort := rfl

theorem good_2_8 (p : Nat) (hp : 3 ≤ p) (a : DefaultArgs) (h : defaultArgs p 2 8 = .ok a) :
    RowGood p 2 8 a := by
  rw [da_2_8] at h
  split_ifs at h
  · cases h; exact row_good 3 p _ _ _ (by decide +kernel) (by omega)
  · cases h; exact row_good 5 p _ _ _ (by decide +kernel) (by omega)
  · cases h; exact row_good 7 p _ _ _ (by decide +kernel) (by omega)
  · cases h; exact row_good 13 p _ _ _ (by decide +kernel) (by omega)
  · cases h; exact row_good 17 p _ _ _ (by decide +kernel) (by omega)

theorem returns_2_8 (p : Int) : ∃ a, defaultArgs p 2 8 = .ok a := by
  rw [da_2_8]
  split_ifs <;> first | exact ⟨_, rfl⟩ | (exfalso; omega)

theorem da_2_9 (p : Int) : defaultArgs p 2 9 =
    if p < 5 then
      .ok ⟨41, [18, 18], [43, 42, 41, 40, 39, 38, 37, 36, 35, 34, 33, 32, 31, 30, 29, 28, 27, 26,
        25, 24, 23, 22, 21, 20, 19, 18, 17, 16, 16, 16, 16, 16, 16, 16, 16, 16, 16, 16, 16, 16,
        16, 16, 16, 16, 16, 16, 16, 16, 16, 16, 16, 16, 16, 16, 16, 16, 16]⟩
    else if 5 ≤ p ∧ p < 7 then
      .ok ⟨33, [16, 16], [42, 41, 40, 39, 38, 37, 36, 35, 34, 33, 32, 31, 30, 29, 28, 27, 26, 25,
        24, 23, 22, 21, 20, 19, 18, 17, 16, 15, 15, 15, 15, 15, 15, 15, 15, 15, 15, 15, 15, 15,
        15, 15, 15, 15, 15, 15, 15, 15, 15, 15, 15, 15, 15, 15, 15, 15, 15]⟩
    else if 7 ≤ p ∧ p < 11 then
      .ok ⟨32, [16, 16], [42, 41, 40, 39, 38, 37, 36, 35, 34, 33, 32, 31, 30, 29, 28, 27, 26, 25,
        24, 23, 22, 21, 20, 19, 18, 17, 16, 15, 15, 15, 15, 15, 15, 15, 15, 15, 15, 15, 15, 15,
        15, 15, 15, 15, 15, 15, 15, 15, 15, 15, 15, 15, 15, 15, 15, 15, 15]⟩
    else if 11 ≤ p ∧ p < 17 then
      .ok ⟨31, [16, 16], [42, 41, 40, 39, 38, 37, 36, 35, 34, 33, 32, 31, 30, 29, 28, 27, 26, 25,
        24, 23, 22, 21, 20, 19, 18, 17, 16, 15, 15, 15, 15, 15, 15, 15, 15, 15, 15, 15, 15, 15,
        15, 15, 15, 15, 15, 15, 15, 15, 15, 15, 15, 15, 15, 15, 15, 15, 15]⟩
    else if 17 ≤ p then
      .ok ⟨29, [15, 15], [42, 41, 40, 39, 38, 37, 36, 35, 34, 33, 32, 31, 30, 29, 28, 27, 26, 25,
        24, 23, 22, 21, 20, 19, 18, 17, 16, 15, 15, 15, 15, 15, 15, 15, 15, 15, 15, 15, 15, 15,
        15, 15, 15, 15, 15, 15, 15, 15, 15, 15, 15, 15, 15, 15, 15, 15, 15]⟩
    else .error .abort := rfl

theorem good_2_9 (p : Nat) (hp : 3 ≤ p) (a : DefaultArgs) (h : defaultArgs p 2 9 = .ok a) :
    RowGood p 2 9 a := by
  rw [da_2_9] at h
  split_ifs at h
  · cases h; exact row_good 3 p _ _ _ (by decide +kernel) (by omega)
  · cases h; exact row_good 5 p _ _ _ (by decide +kernel) (by omega)
  · cases h; exact row_good 7 p _ _ _ (by decide +kernel) (by omega)
  · cases h; exact row_good 11 p _ _ _ (by decide +kernel) (by omega)
  · cases h; exact row_good 17 p _ _ _ (by decide +kernel) (by omega)

theorem returns_2_9 (p : Int) : ∃ a, defaultArgs p 2 9 = .ok a := by
  rw [da_2_9]
  split_ifs <;> first | exact ⟨_, rfl⟩ | (exfalso; omega)

theorem da_3_4 (p : Int) : defaultArgs p 3 4 =
    if p < 5 then
      .ok ⟨16, [7, 7, 8], [24, 23, 22, 21, 20, 19, 18, 17, 16, 15, 14, 13, 12, 11, 10, 9, 8, 7,
        6, 5, 5, 5]⟩
    else if 5 ≤ p ∧ p < 7 then
      .ok ⟨9, [4, 5, 5], [23, 22, 21, 20, 19, 18, 17, 16, 15, 14, 13, 12, 11, 10, 9, 8, 7, 6, 5,
        4, 4, 4]⟩
    else if 7 ≤ p ∧ p < 23 then
      .ok ⟨6, [4, 4, 3], [23, 22, 21, 20, 19, 18, 17, 16, 15, 14, 13, 12, 11, 10, 9, 8, 7, 6, 5,
        4, 3, 3]⟩
    else if 23 ≤ p ∧ p < 43 then
      .ok ⟨5, [3, 3, 3], [22, 21, 20, 19, 18, 17, 16, 15, 14, 13, 12, 11, 10, 9, 8, 7, 6, 5, 4,
        3, 3, 3]⟩
    else if 43 ≤ p then
      .ok ⟨4, [3, 3, 2], [22, 21, 20, 19, 18, 17, 16, 15, 14, 13, 12, 11, 10, 9, 8, 7, 6, 5, 4,
        3, 2, 2]⟩
    else .error .abort := rfl

theorem good_3_4 (p : Nat) (hp : 3 ≤ p) (a : DefaultArgs) (h : defaultArgs p 3 4 = .ok a) :
    RowGood p 3 4 a := by
  rw [da_3_4] at h
  split_ifs at h
  · cases h; exact row_good 3 p _ _ _ (by decide +kernel) (by omega)
  · cases h; exact row_good 5 p _ _ _ (by decide +kernel) (by omega)
  · cases h; exact row_good 7 p _ _ _ (by decide +kernel) (by omega)
  · cases h; exact row_good 23 p _ _ _ (by decide +kernel) (by omega)
  · cases h; exact row_good 43 p _ _ _ (by decide +kernel) (by omega)

theorem returns_3_4 (p : Int) : ∃ a, defaultArgs p 3 4 = .ok a := by
  rw [da_3_4]
  split_ifs <;> first | exact ⟨_, rfl⟩ | (exfalso; omega)

theorem da_3_5 (p : Int) : defaultArgs p 3 5 =
    if p < 5 then
      .ok ⟨21, [11, 11, 10], [58, 56, 54, 52, 51, 50, 49, 48, 47, 46, 45, 44, 43, 42, 41, 40, 39,
        38, 37, 36, 35, 34, 33, 32, 31, 30, 29, 28, 27, 26, 25, 24, 23, 22, 21, 20, 19, 18, 17,
        16, 15, 14, 13, 12, 11, 10, 9, 8, 7, 7, 7, 7, 7]⟩
    else if 5 ≤ p ∧ p < 7 then
      .ok ⟨17, [8, 8, 9], [57, 55, 53, 51, 50, 49, 48, 47, 46, 45, 44, 43, 42, 41, 40, 39, 38,
        37, 36, 35, 34, 33, 32, 31, 30, 29, 28, 27, 26, 25, 24, 23, 22, 21, 20, 19, 18, 17, 16,
        15, 14, 13, 12, 11, 10, 9, 8, 7, 7, 7, 7, 7, 7]⟩
    else if 7 ≤ p ∧ p < 11 then
      .ok ⟨14, [8, 8, 7], [57, 55, 53, 51, 50, 49, 48, 47, 46, 45, 44, 43, 42, 41, 40, 39, 38,
        37, 36, 35, 34, 33, 32, 31, 30, 29, 28, 27, 26, 25, 24, 23, 22, 21, 20, 19, 18, 17, 16,
        15, 14, 13, 12, 11, 10, 9, 8, 7, 6, 6, 6, 6, 6]⟩
    else if 11 ≤ p ∧ p < 23 then
      .ok ⟨12, [7, 7, 6], [57, 55, 53, 51, 50, 49, 48, 47, 46, 45, 44, 43, 42, 41, 40, 39, 38,
        37, 36, 35, 34, 33, 32, 31, 30, 29, 28, 27, 26, 25, 24, 23, 22, 21, 20, 19, 18, 17, 16,
        15, 14, 13, 12, 11, 10, 9, 8, 7, 6, 6, 6, 6, 6]⟩
    else if 23 ≤ p ∧ p < 29 then
      .ok ⟨11, [6, 6, 6], [56, 54, 52, 50, 49, 48, 47, 46, 45, 44, 43, 42, 41, 40, 39, 38, 37,
        36, 35, 34, 33, 32, 31, 30, 29, 28, 27, 26, 25, 24, 23, 22, 21, 20, 19, 18, 17, 16, 15,
        14, 13, 12, 11, 10, 9, 8, 7, 6, 6, 6, 6, 6, 6]⟩
    else if 29 ≤ p then
      .ok ⟨10, [6, 6, 5], [56, 54, 52, 50, 49, 48, 47, 46, 45, 44, 43, 42, 41, 40, 39, 38, 37,
        36, 35, 34, 33, 32, 31, 30, 29, 28, 27, 26, 25, 24, 23, 22, 21, 20, 19, 18, 17, 16, 15,
        14, 13, 12, 11, 10, 9, 8, 7, 6, 5, 5, 5, 5, 5]⟩
    else .error .abort := rfl

theorem good_3_5 (p : Nat) (hp : 3 ≤ p) (a : DefaultArgs) (h : defaultArgs p 3 5 = .ok a) :
    RowGood p 3 5 a := by
  rw [da_3_5] at h
  split_ifs at h
  · cases h; exact row_good 3 p _ _ _ (by decide +kernel) (by omega)
  · cases h; exact row_good 5 p _ _ _ (by decide +kernel) (by omega)
  · cases h; exact row_good 7 p _ _ _ (by decide +kernel) (by omega)
  · cases h; exact row_good 11 p _ _ _ (by decide +kernel) (by omega)
  · cases h; exact row_good 23 p _ _ _ (by decide +kernel) (by omega)
  · cases h; exact row_good 29 p _ _ _ (by decide +kernel) (by omega)

theorem returns_3_5 (p : Int) : ∃ a, defaultArgs p 3 5 = .ok a := by
  rw [da_3_5]
  split_ifs <;> first | exact ⟨_, rfl⟩ | (exfalso; omega)

theorem da_3_6 (p : Int) : defaultArgs p 3 6 =
    if p < 5 then
      .ok ⟨38, [17, 18, 17], [117, 115, 113, 111, 109, 107, 105, 103, 101, 99, 98, 97, 96, 95,
        94, 93, 92, 91, 90, 89, 88, 87, 86, 85, 84, 83, 82, 81, 80, 79, 78, 77, 76, 75, 74, 73,
        72, 71, 70, 69, 68, 67, 66, 65, 64, 63, 62, 61, 60, 59, 58, 57, 56, 55, 54, 53, 52, 51,
        50, 49, 48, 47, 46, 45, 44, 43, 42, 41, 40, 39, 38, 37, 36, 35, 34, 33, 32, 31, 30, 29,
        28, 27, 26, 25, 24, 23, 22, 21, 20, 19, 18, 17, 16, 15, 14, 13, 13, 13, 13, 13, 13, 13,
        13, 13, 13, 13]⟩
    else if 5 ≤ p ∧ p < 7 then
      .ok ⟨29, [15, 15, 14], [116, 114, 112, 110, 108, 106, 104, 102, 100, 98, 97, 96, 95, 94,
        93, 92, 91, 90, 89, 88, 87, 86, 85, 84, 83, 82, 81, 80, 79, 78, 77, 76, 75, 74, 73, 72,
        71, 70, 69, 68, 67, 66, 65, 64, 63, 62, 61, 60, 59, 58, 57, 56, 55, 54, 53, 52, 51, 50,
        49, 48, 47, 46, 45, 44, 43, 42, 41, 40, 39, 38, 37, 36, 35, 34, 33, 32, 31, 30, 29, 28,
        27, 26, 25, 24, 23, 22, 21, 20, 19, 18, 17, 16, 15, 14, 13, 12, 12, 12, 12, 12, 12, 12,
        12, 12, 12, 12]⟩
    else if 7 ≤ p ∧ p < 11 then
      .ok ⟨28, [15, 15, 14], [116, 114, 112, 110, 108, 106, 104, 102, 100, 98, 97, 96, 95, 94,
        93, 92, 91, 90, 89, 88, 87, 86, 85, 84, 83, 82, 81, 80, 79, 78, 77, 76, 75, 74, 73, 72,
        71, 70, 69, 68, 67, 66, 65, 64, 63, 62, 61, 60, 59, 58, 57, 56, 55, 54, 53, 52, 51, 50,
        49, 48, 47, 46, 45, 44, 43, 42, 41, 40, 39, 38, 37, 36, 35, 34, 33, 32, 31, 30, 29, 28,
        27, 26, 25, 24, 23, 22, 21, 20, 19, 18, 17, 16, 15, 14, 13, 12, 12, 12, 12, 12, 12, 12,
        12, 12, 12, 12]⟩
    else if 11 ≤ p ∧ p < 17 then
      .ok ⟨26, [14, 14, 13], [116, 114, 112, 110, 108, 106, 104, 102, 100, 98, 97, 96, 95, 94,
        93, 92, 91, 90, 89, 88, 87, 86, 85, 84, 83, 82, 81, 80, 79, 78, 77, 76, 75, 74, 73, 72,
        71, 70, 69, 68, 67, 66, 65, 64, 63, 62, 61, 60, 59, 58, 57, 56, 55, 54, 53, 52, 51, 50,
        49, 48, 47, 46, 45, 44, 43, 42, 41, 40, 39, 38, 37, 36, 35, 34, 33, 32, 31, 30, 29, 28,
        27, 26, 25, 24, 23, 22, 21, 20, 19, 18, 17, 16, 15, 14, 13, 12, 12, 12, 12, 12, 12, 12,
        12, 12, 12, 12]⟩
    else if 17 ≤ p ∧ p < 23 then
      .ok ⟨24, [13, 13, 12], [116, 114, 112, 110, 108, 106, 104, 102, 100, 98, 97, 96, 95, 94,
        93, 92, 91, 90, 89, 88, 87, 86, 85, 84, 83, 82, 81, 80, 79, 78, 77, 76, 75, 74, 73, 72,
        71, 70, 69, 68, 67, 66, 65, 64, 63, 62, 61, 60, 59, 58, 57, 56, 55, 54, 53, 52, 51, 50,
        49, 48, 47, 46, 45, 44, 43, 42, 41, 40, 39, 38, 37, 36, 35, 34, 33, 32, 31, 30, 29, 28,
        27, 26, 25, 24, 23, 22, 21, 20, 19, 18, 17, 16, 15, 14, 13, 12, 12, 12, 12, 12, 12, 12,
        12, 12, 12, 12]⟩
    else if 23 ≤ p then
      .ok ⟨22, [12, 12, 11], [115, 113, 111, 109, 107, 105, 103, 101, 99, 97, 96, 95, 94, 93, 92,
        91, 90, 89, 88, 87, 86, 85, 84, 83, 82, 81, 80, 79, 78, 77, 76, 75, 74, 73, 72, 71, 70,
        69, 68, 67, 66, 65, 64, 63, 62, 61, 60, 59, 58, 57, 56, 55, 54, 53, 52, 51, 50, 49, 48,
        47, 46, 45, 44, 43, 42, 41, 40, 39, 38, 37, 36, 35, 34, 33, 32, 31, 30, 29, 28, 27, 26,
        25, 24, 23, 22, 21, 20, 19, 18, 17, 16, 15, 14, 13, 12, 11, 11, 11, 11, 11, 11, 11, 11,
        11, 11, 11]⟩
    else .error .abort := rfl

theorem good_3_6 (p : Nat) (hp : 3 ≤ p) (a : DefaultArgs) (h : defaultArgs p 3 6 = .ok a) :
    RowGood p 3 6 a := by
  rw [da_3_6] at h
  split_ifs at h
  · cases h; exact row_good 3 p _ _ _ (by decide +kernel) (by omega)
  · cases h; exact row_good 5 p _ _ _ (by decide +kernel) (by omega)
  · cases h; exact row_good 7 p _ _ _ (by decide +kernel) (by omega)
  · cases h; exact row_good 11 p _ _ _ (by decide +kernel) (by omega)
  · cases h; exact row_good 17 p _ _ _ (by decide +kernel) (by omega)
  · cases h; exact row_good 23 p _ _ _ (by decide +kernel) (by omega)

theorem returns_3_6 (p : Int) : ∃ a, defaultArgs p 3 6 = .ok a := by
  rw [da_3_6]
  split_ifs <;> first | exact ⟨_, rfl⟩ | (exfalso; omega)

end Verif
