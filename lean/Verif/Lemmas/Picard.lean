import Mathlib.Data.Nat.Totient
import Mathlib.RingTheory.Polynomial.Cyclotomic.Roots
import Mathlib.RingTheory.Polynomial.GaussLemma
import Mathlib.Analysis.Complex.ExponentialBounds
import Mathlib.Analysis.Complex.Polynomial.Basic
import Mathlib.Algebra.Polynomial.Reverse
import Verif.Model.Picard
import Verif.Spec.Picard

/-!
Lemmas for C43: a lower bound for Euler's function, and cyclotomic polynomials among the irreducible ones.
-/

namespace Verif

open Polynomial Spec

/-! ### A lower bound for Euler's function -/

theorem prod_one_sub_ge (S : Finset ℕ) : (∀ q ∈ S, 2 ≤ q) → (1 : ℚ) / (S.card + 1) ≤ ∏ q ∈ S, (1 - (q : ℚ)⁻¹) := by
  induction S using Finset.induction_on_max with
  | empty => intro _; simp
  | insert a s hmax ih =>
    intro h
    have ha : a ∉ s := fun h' => lt_irrefl _ (hmax a h')
    rw [Finset.prod_insert ha, Finset.card_insert_of_notMem ha]
    have hcard : s.card + 2 ≤ a := by
      have hsub : s ⊆ Finset.Ico 2 a := fun x hx => Finset.mem_Ico.2 ⟨h x (Finset.mem_insert_of_mem hx), hmax x hx⟩
      have := Finset.card_le_card hsub
      rw [Nat.card_Ico] at this
      have := h a (Finset.mem_insert_self _ _)
      omega
    have ih := ih (fun q hq => h q (Finset.mem_insert_of_mem hq))
    have h1 : (1 : ℚ) - ((s.card : ℚ) + 2)⁻¹ ≤ 1 - (a : ℚ)⁻¹ := by
      have : ((a : ℚ))⁻¹ ≤ ((s.card : ℚ) + 2)⁻¹ := by
        apply inv_anti₀ (by positivity)
        exact_mod_cast hcard
      linarith
    have h2 : (1 : ℚ) / ((s.card + 1 : ℕ) + 1) = (1 - ((s.card : ℚ) + 2)⁻¹) * (1 / (s.card + 1)) := by
      have h3 : (s.card : ℚ) + 1 ≠ 0 := by positivity
      have h4 : (s.card : ℚ) + 2 ≠ 0 := by positivity
      push_cast
      field_simp
      ring
    rw [h2]
    apply mul_le_mul h1 ih (by positivity)
    have : (a : ℚ)⁻¹ ≤ 1 := inv_le_one_of_one_le₀ (by have := h a (Finset.mem_insert_self _ _); exact_mod_cast (by omega))
    linarith

theorem totient_ge (k : ℕ) : k ≤ k.totient * (k.primeFactors.card + 1) := by
  have h := Nat.totient_eq_mul_prod_factors k
  have h1 := prod_one_sub_ge k.primeFactors (fun q hq => (Nat.prime_of_mem_primeFactors hq).two_le)
  have h2 : (k : ℚ) * (1 / (k.primeFactors.card + 1)) ≤ k.totient := by
    rw [h]
    exact mul_le_mul_of_nonneg_left h1 (by positivity)
  rw [mul_one_div, div_le_iff₀ (by positivity)] at h2
  exact_mod_cast h2

theorem prod_ge (S : Finset ℕ) (h : ∀ q ∈ S, 2 ≤ q) (hS : 1 ≤ S.card) : 2 * 3 ^ (S.card - 1) ≤ ∏ q ∈ S, q := by
  have key : ∀ T : Finset ℕ, (∀ q ∈ T, 3 ≤ q) → 3 ^ T.card ≤ ∏ q ∈ T, q := fun T hT => Finset.pow_card_le_prod _ _ _ hT
  by_cases h2 : 2 ∈ S
  · rw [← Finset.mul_prod_erase S _ h2, ← Finset.card_erase_of_mem h2]
    refine Nat.mul_le_mul_left 2 (key _ fun q hq => ?_)
    have := h q (Finset.mem_of_mem_erase hq)
    have := Finset.ne_of_mem_erase hq
    omega
  · have := key S (fun q hq => by
      have := h q hq
      have : q ≠ 2 := fun h' => h2 (h' ▸ hq)
      omega)
    refine le_trans ?_ this
    obtain ⟨c, hc⟩ : ∃ c, S.card = c + 1 := ⟨S.card - 1, by omega⟩
    rw [hc, Nat.add_sub_cancel, pow_succ, mul_comm]
    exact Nat.mul_le_mul_left _ (by norm_num)

theorem logb_three : (3 : ℝ) / 2 ≤ Real.logb 2 3 := by
  have h : Real.logb 2 ((2 : ℝ) ^ 3) ≤ Real.logb 2 ((3 : ℝ) ^ 2) :=
    Real.logb_le_logb_of_le (by norm_num) (by norm_num) (by norm_num)
  rw [Real.logb_pow, Real.logb_pow, Real.logb_self_eq_one (by norm_num)] at h
  push_cast at h
  linarith

theorem logb_ge {k : ℕ} (hk : 3 ≤ k) : (3 : ℝ) / 2 ≤ Real.logb 2 k :=
  logb_three.trans (Real.logb_le_logb_of_le (by norm_num) (by norm_num) (by exact_mod_cast hk))

/-- `φ(k)` beats `k / (log2 k + 1)` by more than one percent from 3 on. -/
theorem totient_log {k : ℕ} (hk : 3 ≤ k) : 101 * (k : ℝ) ≤ 100 * (k.totient * (Real.logb 2 k + 1)) := by
  have h1 := totient_ge k
  obtain ⟨r, hr⟩ : ∃ r, r = k.primeFactors.card := ⟨_, rfl⟩
  rw [← hr] at h1
  have h1' : (k : ℝ) ≤ k.totient * (r + 1) := by exact_mod_cast h1
  have hr1 : 1 ≤ r := by
    rw [hr, Nat.one_le_iff_ne_zero, Ne, Finset.card_eq_zero, Nat.primeFactors_eq_empty]
    omega
  have key : 101 * ((r : ℝ) + 1) ≤ 100 * (Real.logb 2 k + 1) := by
    have hlog := logb_ge hk
    rcases (show r = 1 ∨ 2 ≤ r by omega) with h | h
    · rw [h]; push_cast; linarith
    · have h2 : 2 * 3 ^ (r - 1) ≤ k := by
        rw [hr]
        refine (prod_ge _ (fun q hq => (Nat.prime_of_mem_primeFactors hq).two_le) (by omega)).trans ?_
        exact Nat.le_of_dvd (by omega) (Nat.prod_primeFactors_dvd k)
      have h3 : Real.logb 2 ((2 : ℝ) * 3 ^ (r - 1)) ≤ Real.logb 2 k :=
        Real.logb_le_logb_of_le (by norm_num) (by positivity) (by exact_mod_cast h2)
      rw [Real.logb_mul (by norm_num) (by positivity), Real.logb_self_eq_one (by norm_num), Real.logb_pow] at h3
      have h4 : ((r - 1 : ℕ) : ℝ) = r - 1 := by push_cast [Nat.cast_sub hr1]; ring
      rw [h4] at h3
      have h5 : (2 : ℝ) ≤ r := by exact_mod_cast h
      nlinarith [logb_three]
  have h0 : (0 : ℝ) ≤ k.totient := by positivity
  nlinarith

/-- `x / (log2 x + 1)` grows from 3 on. -/
theorem mono_log {j k : ℕ} (hj : 3 ≤ j) (hjk : j ≤ k) :
    (j : ℝ) * (Real.logb 2 k + 1) ≤ k * (Real.logb 2 j + 1) := by
  have hj0 : (0 : ℝ) < j := by exact_mod_cast (by omega)
  have hk0 : (0 : ℝ) < k := by exact_mod_cast (by omega)
  have hjk' : (j : ℝ) ≤ k := by exact_mod_cast hjk
  have h1 : Real.logb 2 k - Real.logb 2 j ≤ ((k : ℝ) / j - 1) / Real.log 2 := by
    rw [← Real.logb_div hk0.ne' hj0.ne', Real.logb]
    apply div_le_div_of_nonneg_right _ (Real.log_nonneg (by norm_num))
    exact Real.log_le_sub_one_of_pos (by positivity)
  have hl2 := Real.log_two_gt_d9
  have h2 : (j : ℝ) * (((k : ℝ) / j - 1) / Real.log 2) = (k - j) / Real.log 2 := by
    field_simp
  have h3 : ((k : ℝ) - j) / Real.log 2 ≤ 2 * (k - j) := by
    rw [div_le_iff₀ (by linarith)]
    nlinarith
  have h4 := logb_ge hj
  have h5 := mul_le_mul_of_nonneg_left h1 hj0.le
  rw [h2] at h5
  nlinarith

/-- The test says "continue" up to any `k` with `φ(k) = d`. -/
theorem cmp_below {cmp : Nat → Nat → Bool} (hc : CmpOK cmp) {j k : ℕ} (hj : 1 ≤ j) (hjk : j ≤ k) :
    cmp j k.totient = true := by
  have hpos : 1 ≤ k.totient := Nat.totient_pos.2 (by omega)
  rcases (show j = 1 ∨ j = 2 ∨ 3 ≤ j by omega) with h | h | h
  · rw [h]; exact (hc.one _).2 hpos
  · rw [h]; exact (hc.two _).2 hpos
  · apply hc.low j _ h
    have h1 := mono_log h hjk
    have h2 := totient_log (h.trans hjk)
    have h3 := logb_ge h
    have h4 := logb_ge (h.trans hjk)
    have hk0 : (0 : ℝ) < k := by exact_mod_cast (by omega)
    -- j (Lk + 1) <= k (Lj + 1), 101 k <= 100 φ (Lk + 1)
    have h5 : 101 * (j : ℝ) * (Real.logb 2 k + 1) ≤ (100 * (k.totient * (Real.logb 2 j + 1))) * (Real.logb 2 k + 1) := by
      have h6 := mul_le_mul_of_nonneg_right h2 (show (0 : ℝ) ≤ Real.logb 2 j + 1 by linarith)
      nlinarith
    exact le_of_mul_le_mul_right h5 (by linarith)

/-- The test says "stop" somewhere. -/
theorem cmp_stops {cmp : Nat → Nat → Bool} (hc : CmpOK cmp) (d : ℕ) : ∃ K, 1 ≤ K ∧ cmp K d = false := by
  obtain ⟨m, hm⟩ : ∃ m, m = 4 * d + 2 := ⟨_, rfl⟩
  have hm1 : m + 1 ≤ 2 ^ m := Nat.lt_two_pow_self
  have hK : (4 : ℕ) ^ m = 2 ^ m * 2 ^ m := by rw [← mul_pow]; norm_num
  have h3 : 3 ≤ 4 ^ m := by rw [hK]; nlinarith
  refine ⟨4 ^ m, by omega, hc.high _ _ h3 ?_⟩
  have hlog : Real.logb 2 ((4 ^ m : ℕ) : ℝ) = 2 * m := by
    push_cast
    rw [show (4 : ℝ) = 2 ^ 2 by norm_num, ← pow_mul, Real.logb_pow, Real.logb_self_eq_one (by norm_num)]
    push_cast; ring
  rw [hlog]
  have h4 : 101 * (d * (2 * m + 1)) ≤ 100 * 4 ^ m := by
    rw [hK]
    have : (4 * d) * (m + 1) ≤ 2 ^ m * 2 ^ m := Nat.mul_le_mul (by omega) hm1
    nlinarith
  exact_mod_cast h4

end Verif
