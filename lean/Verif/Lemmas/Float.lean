import Verif.Spec.Float
import Verif.Lemmas.CharpolyFrobFacts
import Mathlib.Tactic.Linarith
import Mathlib.Tactic.Positivity
import Mathlib.Tactic.FieldSimp

namespace Verif

open Spec

/-! ### Errors -/

theorem fl_quot {u : ℝ} (h0 : 0 ≤ u) (h1 : u ≤ 1 / 5) {F : FlOps} (hF : FlOK u F) {a b : Nat} (ha : 1 ≤ a) (hb : 2 ≤ b) :
    |F.div (F.log a) (F.log b) - Real.log a / Real.log b| ≤ 4 * u * (Real.log a / Real.log b) := by
  have la : 0 ≤ Real.log a := Real.log_natCast_nonneg a
  have lb : 0 < Real.log b := Real.log_pos (by exact_mod_cast hb)
  have ea := abs_le.1 (hF.log a ha)
  have eb := abs_le.1 (hF.log b (by omega))
  have hb' : 0 < F.log b := by nlinarith
  have ha' : 0 ≤ F.log a := by nlinarith
  set Q := Real.log a / Real.log b with hQ
  have hQ0 : 0 ≤ Q := div_nonneg la lb.le
  have haQ : Real.log a = Q * Real.log b := by rw [hQ]; field_simp
  set r := F.log a / F.log b with hr
  have hr0 : 0 ≤ r := div_nonneg ha' hb'.le
  have har : F.log a = r * F.log b := by rw [hr]; field_simp
  have ed := abs_le.1 (hF.div (F.log a) (F.log b) hb'.ne')
  rw [← hr, abs_of_nonneg hr0] at ed
  have up : r * (1 - u) ≤ (1 + u) * Q := by
    have : r * (1 - u) * Real.log b ≤ (1 + u) * Q * Real.log b := by
      have h2 : r * ((1 - u) * Real.log b) ≤ r * F.log b := mul_le_mul_of_nonneg_left (by linarith) hr0
      nlinarith
    exact le_of_mul_le_mul_right this lb
  have lo : (1 - u) * Q ≤ r * (1 + u) := by
    have : (1 - u) * Q * Real.log b ≤ r * (1 + u) * Real.log b := by
      have h2 : r * F.log b ≤ r * ((1 + u) * Real.log b) := mul_le_mul_of_nonneg_left (by linarith) hr0
      nlinarith
    exact le_of_mul_le_mul_right this lb
  have hu2 : u * u ≤ u * (1 / 5) := mul_le_mul_of_nonneg_left h1 h0
  have up2 : (1 + u) * r ≤ (1 + 4 * u) * Q := by
    have h2 : (1 + u) * r * (1 - u) ≤ (1 + 4 * u) * Q * (1 - u) := by
      have h3 : (1 + u) * (r * (1 - u)) ≤ (1 + u) * ((1 + u) * Q) := mul_le_mul_of_nonneg_left up (by linarith)
      have h4 : (1 + u) * (1 + u) * Q ≤ (1 + 4 * u) * (1 - u) * Q := mul_le_mul_of_nonneg_right (by nlinarith) hQ0
      nlinarith
    exact le_of_mul_le_mul_right h2 (by linarith)
  have lo2 : (1 - 4 * u) * Q ≤ (1 - u) * r := by
    have h2 : (1 - 4 * u) * Q * (1 + u) ≤ (1 - u) * r * (1 + u) := by
      have h3 : (1 - u) * ((1 - u) * Q) ≤ (1 - u) * (r * (1 + u)) := mul_le_mul_of_nonneg_left lo (by linarith)
      have h4 : (1 - 4 * u) * (1 + u) * Q ≤ (1 - u) * (1 - u) * Q := mul_le_mul_of_nonneg_right (by nlinarith) hQ0
      nlinarith
    exact le_of_mul_le_mul_right h2 (by linarith)
  rw [abs_le]
  constructor <;> linarith [ed.1, ed.2]

/-- A sum of two approximate non-negative terms. -/
theorem fl_add {u : ℝ} (h0 : 0 ≤ u) (h1 : u ≤ 1 / 5) {F : FlOps} (hF : FlOK u F) {x y x' y' : ℝ} (hx : 0 ≤ x) (hy : 0 ≤ y)
    (ex : |x' - x| ≤ 4 * u * x) (ey : |y' - y| ≤ 4 * u * y) : |F.add x' y' - (x + y)| ≤ 6 * u * (x + y) := by
  have hs := abs_le.1 (hF.add x' y')
  have ex' := abs_le.1 ex
  have ey' := abs_le.1 ey
  have hb : |x' + y'| ≤ (1 + 4 * u) * (x + y) := by
    rw [abs_le]
    constructor
    · nlinarith [mul_nonneg h0 hx, mul_nonneg h0 hy]
    · linarith
  have hb' : u * |x' + y'| ≤ u * ((1 + 4 * u) * (x + y)) := mul_le_mul_of_nonneg_left hb h0
  have hb'' : u * ((1 + 4 * u) * (x + y)) ≤ 2 * u * (x + y) := by
    have : u * (1 + 4 * u) ≤ 2 * u := by nlinarith
    calc u * ((1 + 4 * u) * (x + y)) = u * (1 + 4 * u) * (x + y) := by ring
      _ ≤ 2 * u * (x + y) := mul_le_mul_of_nonneg_right this (by linarith)
  rw [abs_le]
  constructor <;> linarith [hs.1, hs.2]

theorem fl_lhs {u : ℝ} (h0 : 0 ≤ u) (h1 : u ≤ 1 / 5) {F : FlOps} (hF : FlOK u F) {p k : Nat} (hp : 2 ≤ p) (hk : 1 ≤ k)
    (P : Nat) :
    |F.lhs p P k - (Real.log k / Real.log p + P)| ≤ 6 * u * (Real.log k / Real.log p + P) := by
  have lp : 0 < Real.log p := Real.log_pos (by exact_mod_cast hp)
  unfold FlOps.lhs
  rw [Int.cast_natCast]
  refine fl_add h0 h1 hF (div_nonneg (Real.log_natCast_nonneg k) lp.le) (Nat.cast_nonneg P) (fl_quot h0 h1 hF hk hp) ?_
  rw [sub_self, abs_zero]
  positivity

theorem fl_rhs {u : ℝ} (h0 : 0 ≤ u) (h1 : u ≤ 1 / 5) {F : FlOps} (hF : FlOK u F) {p b : Nat} (hp : 2 ≤ p) (hb : 1 ≤ b)
    (dim k : Nat) :
    |F.rhs p b dim k - (Real.log (2 * b : Nat) / Real.log p + dim * k / 2)|
      ≤ 6 * u * (Real.log (2 * b : Nat) / Real.log p + dim * k / 2) := by
  have lp : 0 < Real.log p := Real.log_pos (by exact_mod_cast hp)
  unfold FlOps.rhs
  refine fl_add h0 h1 hF (div_nonneg (Real.log_natCast_nonneg _) lp.le) (by positivity)
    (fl_quot h0 h1 hF (by omega) hp) ?_
  have e1 := abs_le.1 (hF.mul (1 / 2) dim)
  have e2 := abs_le.1 (hF.mul (F.mul (1 / 2) dim) k)
  have hd : (0 : ℝ) ≤ dim := Nat.cast_nonneg _
  have hk : (0 : ℝ) ≤ k := Nat.cast_nonneg _
  rw [abs_of_nonneg (by positivity)] at e1
  set m := F.mul (1 / 2) dim with hm
  have hm0 : 0 ≤ m := by nlinarith
  have hmk : 0 ≤ m * k := mul_nonneg hm0 hk
  rw [abs_of_nonneg hmk] at e2
  have hdk : 0 ≤ (dim : ℝ) * k := mul_nonneg hd hk
  have f1 : m * k ≤ (1 + u) * (dim * k / 2) := by
    have := mul_le_mul_of_nonneg_right (show m ≤ (1 + u) * (dim / 2) by linarith) hk
    linarith
  have f2 : (1 - u) * (dim * k / 2) ≤ m * k := by
    have := mul_le_mul_of_nonneg_right (show (1 - u) * (dim / 2) ≤ m by linarith) hk
    linarith
  have f3 : u * (m * k) ≤ u * ((1 + u) * (dim * k / 2)) := mul_le_mul_of_nonneg_left f1 h0
  have f4 : u * ((1 + u) * (dim * k / 2)) ≤ 2 * u * (dim * k / 2) := by
    have : u * (1 + u) ≤ 2 * u := by nlinarith
    calc u * ((1 + u) * (dim * k / 2)) = u * (1 + u) * (dim * k / 2) := by ring
      _ ≤ 2 * u * (dim * k / 2) := mul_le_mul_of_nonneg_right this (by linarith)
  have f5 : 0 ≤ u * (dim * k / 2) := by positivity
  rw [abs_le]
  constructor <;> linarith [e2.1, e2.2]

/-! ### The gap -/

theorem log_gap {x y : ℝ} (hx : 0 < x) (hy : 0 < y) : 1 - x / y ≤ Real.log y - Real.log x := by
  rw [← Real.log_div hy.ne' hx.ne']
  have := Real.one_sub_inv_le_log_of_pos (div_pos hy hx)
  rwa [inv_div] at this

/-- Two natural numbers `4 b^2 p^s` and `k^2 p^t`, `k <= b`, that are not equal are not close. -/
theorem gap_gt {p b k s t : Nat} (hp : 1 ≤ p) (hk : 1 ≤ k) (hkb : k ≤ b) (h : 4 * b ^ 2 * p ^ s < k ^ 2 * p ^ t) :
    (1 : ℝ) / (4 * b ^ 2 + 1) ≤ Real.log (k ^ 2 * p ^ t : Nat) - Real.log (4 * b ^ 2 * p ^ s : Nat) := by
  have hsq : k ^ 2 ≤ b ^ 2 := Nat.pow_le_pow_left hkb 2
  have hb2 : 0 < b ^ 2 := Nat.pow_pos (by omega)
  have hst : s ≤ t := by
    by_contra hc
    have h1 : p ^ t ≤ p ^ s := Nat.pow_le_pow_right hp (by omega)
    have h2 : k ^ 2 * p ^ t ≤ b ^ 2 * p ^ s := Nat.mul_le_mul hsq h1
    nlinarith [Nat.zero_le (b ^ 2 * p ^ s)]
  obtain ⟨e, rfl⟩ := Nat.exists_eq_add_of_le hst
  have hps : 0 < p ^ s := Nat.pow_pos hp
  have h' : 4 * b ^ 2 < k ^ 2 * p ^ e := by
    have : 4 * b ^ 2 * p ^ s < k ^ 2 * p ^ e * p ^ s := by rw [pow_add] at h; nlinarith
    exact lt_of_mul_lt_mul_right this (Nat.zero_le _)
  have hY : (4 * b ^ 2 + 1 : ℝ) ≤ k ^ 2 * p ^ e := by exact_mod_cast h'
  have hX : (0 : ℝ) < 4 * b ^ 2 := by exact_mod_cast (by omega : 0 < 4 * b ^ 2)
  have hg := log_gap hX (show (0 : ℝ) < k ^ 2 * p ^ e by linarith)
  have hpsR : (p ^ s : ℝ) ≠ 0 := by exact_mod_cast hps.ne'
  have e1 : Real.log (k ^ 2 * p ^ (s + e) : Nat) = Real.log (k ^ 2 * p ^ e) + Real.log (p ^ s) := by
    rw [← Real.log_mul (by linarith) hpsR]
    push_cast
    rw [pow_add]; ring_nf
  have e2 : Real.log (4 * b ^ 2 * p ^ s : Nat) = Real.log (4 * b ^ 2) + Real.log (p ^ s) := by
    rw [← Real.log_mul hX.ne' hpsR]
    push_cast; rfl
  rw [e1, e2]
  have h3 : (4 * b ^ 2 : ℝ) / (k ^ 2 * p ^ e) ≤ 4 * b ^ 2 / (4 * b ^ 2 + 1) :=
    div_le_div_of_nonneg_left hX.le (by linarith) hY
  have h4 : (1 : ℝ) / (4 * b ^ 2 + 1) = 1 - 4 * b ^ 2 / (4 * b ^ 2 + 1) := by field_simp; ring
  rw [h4]
  linarith

theorem gap_lt {p b k s t : Nat} (hp : 1 ≤ p) (hk : 1 ≤ k) (hkb : k ≤ b) (h : k ^ 2 * p ^ t < 4 * b ^ 2 * p ^ s) :
    (1 : ℝ) / (4 * b ^ 2 + 1) ≤ Real.log (4 * b ^ 2 * p ^ s : Nat) - Real.log (k ^ 2 * p ^ t : Nat) := by
  have hsq : k ^ 2 ≤ b ^ 2 := Nat.pow_le_pow_left hkb 2
  have hk2 : 0 < k ^ 2 := Nat.pow_pos (by omega)
  have hX : (0 : ℝ) < 4 * b ^ 2 := by exact_mod_cast (by omega : 0 < 4 * b ^ 2)
  -- enough: some common factor leaves `x + 1 <= y <= 4 b^2 p^e`
  by_cases hst : s ≤ t
  · obtain ⟨e, rfl⟩ := Nat.exists_eq_add_of_le hst
    have hps : 0 < p ^ s := Nat.pow_pos hp
    have h' : k ^ 2 * p ^ e < 4 * b ^ 2 := by
      have : k ^ 2 * p ^ e * p ^ s < 4 * b ^ 2 * p ^ s := by rw [pow_add] at h; nlinarith
      exact lt_of_mul_lt_mul_right this (Nat.zero_le _)
    have hY : (k ^ 2 * p ^ e + 1 : ℝ) ≤ 4 * b ^ 2 := by exact_mod_cast h'
    have hx : (0 : ℝ) < k ^ 2 * p ^ e := by exact_mod_cast Nat.mul_pos hk2 (Nat.pow_pos hp)
    have hg := log_gap hx hX
    have hpsR : (p ^ s : ℝ) ≠ 0 := by exact_mod_cast hps.ne'
    have e1 : Real.log (k ^ 2 * p ^ (s + e) : Nat) = Real.log (k ^ 2 * p ^ e) + Real.log (p ^ s) := by
      rw [← Real.log_mul hx.ne' hpsR]
      push_cast
      rw [pow_add]; ring_nf
    have e2 : Real.log (4 * b ^ 2 * p ^ s : Nat) = Real.log (4 * b ^ 2) + Real.log (p ^ s) := by
      rw [← Real.log_mul hX.ne' hpsR]
      push_cast; rfl
    rw [e1, e2]
    have h3 : (k ^ 2 * p ^ e : ℝ) / (4 * b ^ 2) ≤ 1 - 1 / (4 * b ^ 2) := by
      rw [div_le_iff₀ hX, sub_mul, one_div, inv_mul_cancel₀ hX.ne']; linarith
    have h4 : (1 : ℝ) / (4 * b ^ 2 + 1) ≤ 1 / (4 * b ^ 2) := one_div_le_one_div_of_le hX (by linarith)
    linarith
  · have hle : p ^ t ≤ p ^ s := Nat.pow_le_pow_right hp (by omega)
    have hpt : 0 < p ^ t := Nat.pow_pos hp
    have hx : (0 : ℝ) < (k ^ 2 * p ^ t : Nat) := by exact_mod_cast Nat.mul_pos hk2 hpt
    have hy : (0 : ℝ) < (4 * b ^ 2 * p ^ s : Nat) := by exact_mod_cast lt_of_le_of_lt (Nat.zero_le _) h
    have hg := log_gap hx hy
    have h3 : ((k ^ 2 * p ^ t : Nat) : ℝ) / (4 * b ^ 2 * p ^ s : Nat) ≤ 1 / 4 := by
      rw [div_le_iff₀ hy]
      have h5 : 4 * (k ^ 2 * p ^ t) ≤ 4 * b ^ 2 * p ^ s := by
        have := Nat.mul_le_mul hsq hle; nlinarith
      have h6 : (4 : ℝ) * (k ^ 2 * p ^ t : Nat) ≤ (4 * b ^ 2 * p ^ s : Nat) := by exact_mod_cast h5
      linarith
    have h4 : (1 : ℝ) / (4 * b ^ 2 + 1) ≤ 1 / 2 := by
      apply one_div_le_one_div_of_le (by norm_num)
      have : (1 : ℝ) ≤ b ^ 2 := by exact_mod_cast (by omega : 1 ≤ b ^ 2)
      linarith
    linarith

/-! ### The decision -/

/-- `2 log(p) (lhs - rhs)` is the difference of the logarithms of the two integers. -/
theorem diff_eq {p b k : Nat} (hp : 2 ≤ p) (hb : 1 ≤ b) (hk : 1 ≤ k) (dim P : Nat) :
    2 * Real.log p * ((Real.log k / Real.log p + P) - (Real.log (2 * b : Nat) / Real.log p + dim * k / 2))
      = Real.log (k ^ 2 * p ^ (2 * P) : Nat) - Real.log (4 * b ^ 2 * p ^ (dim * k) : Nat) := by
  have lp : 0 < Real.log p := Real.log_pos (by exact_mod_cast hp)
  have hk0 : (k : ℝ) ≠ 0 := by exact_mod_cast (by omega : k ≠ 0)
  have hp0 : (p : ℝ) ≠ 0 := by exact_mod_cast (by omega : p ≠ 0)
  have hb0 : (b : ℝ) ≠ 0 := by exact_mod_cast (by omega : b ≠ 0)
  have e1 : Real.log (k ^ 2 * p ^ (2 * P) : Nat) = 2 * Real.log k + 2 * P * Real.log p := by
    push_cast
    rw [Real.log_mul (pow_ne_zero _ hk0) (pow_ne_zero _ hp0), Real.log_pow, Real.log_pow]
    push_cast; ring
  have e2 : Real.log (4 * b ^ 2 * p ^ (dim * k) : Nat) = 2 * Real.log (2 * b : Nat) + dim * k * Real.log p := by
    have : (4 * b ^ 2 * p ^ (dim * k) : Nat) = (2 * b) ^ 2 * p ^ (dim * k) := by ring
    rw [this]
    push_cast
    rw [Real.log_mul (pow_ne_zero _ (by positivity)) (pow_ne_zero _ hp0), Real.log_pow, Real.log_pow]
    push_cast; ring
  rw [e1, e2]
  field_simp

/-- How small the errors have to be. -/
def FlSmall (u : ℝ) (p b dim P k : Nat) : Prop :=
  12 * u * (4 * b ^ 2 + 1) * (Real.log k + Real.log (2 * b : Nat) + (P + dim * k / 2) * Real.log p) < 1

theorem fl_decides {u : ℝ} (h0 : 0 ≤ u) (h1 : u ≤ 1 / 5) {F : FlOps} (hF : FlOK u F) {p b k : Nat} (hp : 2 ≤ p)
    (hk : 1 ≤ k) (hkb : k ≤ b) (dim P : Nat) (hs : FlSmall u p b dim P k) :
    (4 * b ^ 2 * p ^ (dim * k) < k ^ 2 * p ^ (2 * P) → F.precAssert p b dim P k = true) ∧
    (k ^ 2 * p ^ (2 * P) < 4 * b ^ 2 * p ^ (dim * k) → F.precAssert p b dim P k = false) := by
  have lp : 0 < Real.log p := Real.log_pos (by exact_mod_cast hp)
  have el := abs_le.1 (fl_lhs h0 h1 hF hp hk P)
  have er := abs_le.1 (fl_rhs h0 h1 hF hp (show 1 ≤ b by omega) dim k)
  have hd := diff_eq hp (show 1 ≤ b by omega) hk dim P
  set L := Real.log k / Real.log p + P with hL
  set Rr := Real.log (2 * b : Nat) / Real.log p + dim * k / 2 with hR
  have hB : (0 : ℝ) < 4 * b ^ 2 + 1 := by positivity
  have hsum : 2 * Real.log p * (6 * u * (L + Rr)) < 1 / (4 * b ^ 2 + 1) := by
    rw [lt_div_iff₀ hB]
    unfold FlSmall at hs
    have : 2 * Real.log p * (6 * u * (L + Rr)) * (4 * b ^ 2 + 1)
        = 12 * u * (4 * b ^ 2 + 1) * (Real.log k + Real.log (2 * b : Nat) + (P + dim * k / 2) * Real.log p) := by
      rw [hL, hR]; field_simp; ring
    rw [this]; exact hs
  have h2 : 0 < 2 * Real.log p := by linarith
  constructor
  · intro h
    have g := gap_gt (by omega) hk hkb h
    rw [← hd] at g
    have h3 : 6 * u * (L + Rr) < L - Rr := lt_of_mul_lt_mul_left (lt_of_lt_of_le hsum g) h2.le
    unfold FlOps.precAssert
    rw [decide_eq_true_iff]
    linarith [el.1, er.2]
  · intro h
    have g := gap_lt (by omega) hk hkb h
    have h3 : 6 * u * (L + Rr) < Rr - L := by
      refine lt_of_mul_lt_mul_left (lt_of_lt_of_le hsum ?_) h2.le
      linarith
    unfold FlOps.precAssert
    rw [decide_eq_false_iff_not, not_lt]
    linarith [el.2, er.1]

/-- Doubles, for the sizes that occur. -/
theorem flSmall_double {p b k dim P : Nat} (hp2 : 2 ≤ p) (hp : p < 2 ^ 63) (hk : 1 ≤ k) (hkb : k ≤ b) (hb : b ≤ 2 ^ 10)
    (hP : P ≤ 2 ^ 12) (hd : dim * k ≤ 2 ^ 13) {u : ℝ} (h0 : 0 ≤ u) (hu : u ≤ 1 / 2 ^ 52) : FlSmall u p b dim P k := by
  have hlog : ∀ m e : Nat, 1 ≤ m → m ≤ 2 ^ e → Real.log m ≤ e := by
    intro m e h1 hm
    have h2 : Real.log m ≤ Real.log (2 ^ e : ℝ) :=
      Real.log_le_log (by exact_mod_cast h1) (by exact_mod_cast hm)
    rw [Real.log_pow] at h2
    have h3 : Real.log 2 ≤ 1 := by have := Real.log_le_sub_one_of_pos (show (0 : ℝ) < 2 by norm_num); linarith
    nlinarith [Nat.cast_nonneg (α := ℝ) e]
  have l1 := hlog k 10 hk (by omega)
  have l2 := hlog (2 * b) 11 (by omega) (by omega)
  have l3 := hlog p 63 (by omega) (by omega)
  have lp : 0 ≤ Real.log p := Real.log_natCast_nonneg _
  have hPR : (P : ℝ) + dim * k / 2 ≤ 2 ^ 13 := by
    have a : (P : ℝ) ≤ 2 ^ 12 := by exact_mod_cast hP
    have c : (dim : ℝ) * k ≤ 2 ^ 13 := by exact_mod_cast hd
    linarith
  have hP0 : (0 : ℝ) ≤ P + dim * k / 2 := by positivity
  have hbR : (4 * b ^ 2 + 1 : ℝ) ≤ 2 ^ 22 + 1 := by
    have : (b : ℝ) ≤ 2 ^ 10 := by exact_mod_cast hb
    have h0 : (0 : ℝ) ≤ b := Nat.cast_nonneg _
    nlinarith
  have hS : Real.log k + Real.log (2 * b : Nat) + (P + dim * k / 2) * Real.log p ≤ 2 ^ 20 := by
    have : ((P : ℝ) + dim * k / 2) * Real.log p ≤ 2 ^ 13 * 63 := mul_le_mul hPR (by exact_mod_cast l3) lp (by norm_num)
    norm_num at l1 l2 this ⊢
    linarith
  have hS0 : 0 ≤ Real.log k + Real.log (2 * b : Nat) + (P + dim * k / 2) * Real.log p := by
    have := Real.log_natCast_nonneg k
    have := Real.log_natCast_nonneg (2 * b)
    have := mul_nonneg hP0 lp
    linarith
  unfold FlSmall
  have a1 : 12 * u * (4 * b ^ 2 + 1) ≤ 12 * (1 / 2 ^ 52) * (2 ^ 22 + 1) :=
    mul_le_mul (by linarith) hbR (by positivity) (by positivity)
  have a2 : 12 * u * (4 * b ^ 2 + 1) * (Real.log k + Real.log (2 * b : Nat) + (P + dim * k / 2) * Real.log p)
      ≤ 12 * (1 / 2 ^ 52) * (2 ^ 22 + 1) * 2 ^ 20 := mul_le_mul a1 hS hS0 (by positivity)
  exact lt_of_le_of_lt a2 (by norm_num)

/-! ### `charpoly_frob` with another assertion -/

theorem charpolyFrob_eq_with (M : CMat Int) (prec : List Int) (p dim : Nat) :
    charpolyFrob M prec p dim = charpolyFrobWith (fun degree => precAssert p degree dim) M prec p dim := rfl

/-- Only the values of the assertion at the shared precisions matter. -/
theorem charpolyFrobWith_congr {pa pa' : Nat → Int → Nat → Bool} {M : CMat Int} {prec : List Int} {p dim : Nat} (hp : 0 < p)
    (h : prec.length = M.rows + 1 → ∀ k, 1 ≤ k → k ≤ M.rows →
      0 ≤ sharedPrec M.rows dim (fun i => prec.getD i 0) (M.rows - k) →
      pa M.rows (sharedPrec M.rows dim (fun i => prec.getD i 0) (M.rows - k)) k
        = pa' M.rows (sharedPrec M.rows dim (fun i => prec.getD i 0) (M.rows - k)) k) :
    charpolyFrobWith pa M prec p dim = charpolyFrobWith pa' M prec p dim := by
  unfold charpolyFrobWith
  cases hcp : charpoly M with
  | error e => rfl
  | ok cp =>
  obtain ⟨hb, -, hl⟩ := charpoly_length hcp
  rw [Res.bind_ok, Res.bind_ok]
  dsimp only
  rw [hl]
  by_cases hlen : prec.length = M.rows + 1
  swap
  · rw [decide_eq_false hlen]; rfl
  have h := h hlen
  rw [decide_eq_true hlen, check_true, Res.bind_ok, Res.bind_ok, Nat.add_sub_cancel]
  generalize M.rows = b at hb h
  cases e1 : frobReduce p b ⟨fun i => prec.getD i 0, fun _ => 0, fun i => cp.getD i 0⟩ with
  | error e => rfl
  | ok st =>
  obtain ⟨p1, m1⟩ := frobReduce_facts _ _ _ _ _ e1
  rw [Res.bind_ok, Res.bind_ok]
  cases e2 : frobSign p b dim st.prec (upd st.cp b 1) with
  | error e => rfl
  | ok ε =>
  rw [Res.bind_ok, Res.bind_ok]
  cases e3 : forRange (b / 2 + 1) { st with cp := upd (upd st.cp b 1) 0 (ε * (p : Int) ^ ((b * dim) / 2)) }
      (symStep p b dim ε) with
  | error e => rfl
  | ok st2 =>
  rw [Res.bind_ok, Res.bind_ok]
  have hε : ε = 1 ∨ ε = -1 := by
    unfold frobSign at e2
    split at e2
    · exact signLoop_values _ _ _ _ _ _ _ _ e2
    · cases e2; exact Or.inl rfl
  obtain ⟨q1, q2, -, -⟩ := symLoop_facts p b dim hb hp ε hε (fun i => prec.getD i 0) _ st2 e3 p1
    (by
      intro j hj
      simp only
      rw [p1]; exact m1 j hj)
    (by simp only [upd_self]; rfl)
    (by simp only [upd_ne _ _ _ _ (show b ≠ 0 by omega), upd_self])
  have hf : ∀ m, m ≤ b → forRange m () (fun k _ => check (pa b (st2.prec (b - (k + 1))) (k + 1)))
      = forRange m () (fun k _ => check (pa' b (st2.prec (b - (k + 1))) (k + 1))) := by
    intro m
    induction m with
    | zero => intro _; rfl
    | succ m ih =>
      intro hm
      have h0 := (q2 (b - (m + 1)) (by omega)).1
      rw [q1 _ (by omega)] at h0
      have := h (m + 1) (by omega) hm h0
      rw [forRange, forRange, ih (by omega), q1 _ (by omega), this]
  rw [hf b le_rfl]

/-- What the assertion has seen when the function returns. -/
theorem charpolyFrobWith_facts {pa : Nat → Int → Nat → Bool} {M : CMat Int} {prec : List Int} {p dim : Nat} (hp : 0 < p)
    {r : List Int} (h : charpolyFrobWith pa M prec p dim = .ok r) :
    prec.length = M.rows + 1 ∧ ∀ k, 1 ≤ k → k ≤ M.rows →
      pa M.rows (sharedPrec M.rows dim (fun i => prec.getD i 0) (M.rows - k)) k = true := by
  unfold charpolyFrobWith at h
  obtain ⟨cp, hcp, h⟩ := Res.bind_eq_ok.1 h
  obtain ⟨hb, hsq, hl⟩ := charpoly_length hcp
  obtain ⟨_, h1, h⟩ := Res.bind_eq_ok.1 h
  have h1 := of_decide_eq_true (check_eq_ok.1 h1)
  rw [hl] at h1
  obtain ⟨b, hbdef⟩ : ∃ b, b = M.rows := ⟨_, rfl⟩
  have hd : cp.length - 1 = b := by omega
  rw [← hbdef] at hb h1 hl ⊢
  simp only [hd] at h
  obtain ⟨st, e1, h⟩ := Res.bind_eq_ok.1 h
  obtain ⟨p1, m1⟩ := frobReduce_facts _ _ _ _ _ e1
  obtain ⟨ε, e2, h⟩ := Res.bind_eq_ok.1 h
  obtain ⟨st2, e3, h⟩ := Res.bind_eq_ok.1 h
  obtain ⟨⟨⟩, e4, h⟩ := Res.bind_eq_ok.1 h
  have hε : ε = 1 ∨ ε = -1 := by
    unfold frobSign at e2
    split at e2
    · exact signLoop_values _ _ _ _ _ _ _ _ e2
    · cases e2; exact Or.inl rfl
  obtain ⟨q1, -⟩ := symLoop_facts p b dim hb hp ε hε (fun i => prec.getD i 0) _ st2 e3 p1
    (by
      intro j hj
      simp only
      rw [p1]; exact m1 j hj)
    (by simp only [upd_self]; rfl)
    (by simp only [upd_ne _ _ _ _ (show b ≠ 0 by omega), upd_self])
  refine ⟨h1, fun k hk1 hk2 => ?_⟩
  have := forRange_check_facts e4 (k - 1) (by omega)
  rw [show k - 1 + 1 = k by omega, q1 _ (by omega)] at this
  exact this

end Verif
