import Verif.Lemmas.SolveSystem2

namespace Verif

open Spec Finset

variable {F : Type} [Field F]

/-- A column supported in the first `k` rows is a combination of the first `k` pivot columns. -/
theorem ech_span {T E : CMat F} {r : Nat} {c : Nat → Nat} (h : Echelon T E r c) (k : Nat) (hk : k ≤ r)
    (z : Nat → F) (hz : ∀ i, k ≤ i → z i = 0) :
    ∃ a : Nat → F, ∀ i, z i = ∑ l ∈ range k, a l * (if i < r ∧ c i ≤ c l then E.e i (c l) else 0) := by
  induction k generalizing z with
  | zero =>
    refine ⟨fun _ => 0, fun i => ?_⟩
    rw [hz i (by omega)]; simp
  | succ k ih =>
    obtain ⟨a, ha⟩ := ih (by omega)
      (fun i => z i - z k / E.e k (c k) * (if i < r ∧ c i ≤ c k then E.e i (c k) else 0)) (by
        intro i hi
        rcases Nat.eq_or_lt_of_le hi with rfl | hlt
        · rw [if_pos ⟨by omega, le_refl _⟩, div_mul_cancel₀ _ (h.pivot _ (by omega)), sub_self]
        · rw [hz i (by omega), if_neg, mul_zero, sub_zero]
          rintro ⟨h1, h2⟩
          have := h.mono k i hlt h1
          omega)
    refine ⟨fun l => if l = k then z k / E.e k (c k) else a l, fun i => ?_⟩
    simp only [Finset.sum_range_succ, if_true]
    have hi := ha i
    rw [sub_eq_iff_eq_add] at hi
    rw [hi]
    congr 1
    refine Finset.sum_congr rfl (fun l hl => ?_)
    have := Finset.mem_range.1 hl
    rw [if_neg (show ¬ l = k by omega)]

/-- The pivot columns are the columns which are not combinations of earlier columns. -/
theorem pivot_iff {T E : CMat F} {r : Nat} {c : Nat → Nat} (h : Echelon T E r c) (x : Nat)
    (hx : x < T.cols) :
    (∀ i, i < r → c i ≠ x) ↔
      ∃ a : Nat → F, ∀ j, j < T.rows → T.e j x = ∑ l ∈ range x, a l * T.e j l := by
  obtain ⟨W, hu, hW⟩ := h.fac
  constructor
  · intro hne
    -- number of pivots before x
    obtain ⟨k, hk, hk1, hk2⟩ : ∃ k, k ≤ r ∧ (∀ i, i < k → c i < x) ∧ (∀ i, k ≤ i → i < r → x < c i) := by
      have : ∀ n, n ≤ r → ∃ k, k ≤ n ∧ (∀ i, i < k → c i < x) ∧ (∀ i, k ≤ i → i < n → x < c i) := by
        intro n
        induction n with
        | zero => exact fun _ => ⟨0, le_refl _, by omega, by omega⟩
        | succ n ih =>
          intro hn
          obtain ⟨k, h1, h2, h3⟩ := ih (by omega)
          rcases Nat.lt_trichotomy (c n) x with hlt | heq | hgt
          · refine ⟨n + 1, le_refl _, fun i hi => ?_, by omega⟩
            rcases Nat.lt_or_ge i n with h' | h'
            · have := h.mono i n h' (by omega); omega
            · rwa [show i = n by omega]
          · exact absurd heq (hne n (by omega))
          · refine ⟨k, by omega, h2, fun i h4 h5 => ?_⟩
            rcases Nat.lt_or_ge i n with h' | h'
            · exact h3 i h4 h'
            · rwa [show i = n by omega]
      exact this r (le_refl _)
    obtain ⟨a, ha⟩ := ech_span h k hk (fun i => if i < r ∧ c i ≤ x then E.e i x else 0) (by
      intro i hi
      rw [if_neg]
      rintro ⟨h1, h2⟩
      have := hk2 i hi h1
      omega)
    refine ⟨fun l => ∑ i ∈ range k, if c i = l then a i else 0, fun j hj => ?_⟩
    have hcol : T.e j x = ∑ i ∈ range k, a i * T.e j (c i) := by
      rw [echelon_entry hW j x hj hx]
      have : ∀ i, i ∈ range k → a i * T.e j (c i) = ∑ q : Fin T.rows, W ⟨j, hj⟩ q *
          (a i * (if q.val < r ∧ c q.val ≤ c i then E.e q.val (c i) else 0)) := by
        intro i hi
        have := Finset.mem_range.1 hi
        rw [echelon_entry hW j (c i) hj (h.lt i (by omega)), Finset.mul_sum]
        refine Finset.sum_congr rfl (fun q _ => ?_)
        ring
      rw [Finset.sum_congr rfl this, Finset.sum_comm]
      refine Finset.sum_congr rfl (fun q _ => ?_)
      rw [← Finset.mul_sum]
      congr 1
      exact ha q
    rw [hcol]
    simp only [Finset.sum_mul]
    rw [Finset.sum_comm]
    refine Finset.sum_congr rfl (fun i hi => ?_)
    have hlt := hk1 i (Finset.mem_range.1 hi)
    rw [Finset.sum_eq_single (c i)]
    · rw [if_pos rfl]
    · intro l _ hl
      rw [if_neg (Ne.symm hl), zero_mul]
    · intro hh; exact absurd (Finset.mem_range.2 hlt) hh
  · rintro ⟨a, ha⟩ i hi rfl
    -- multiply by the inverse of W
    have hw : W⁻¹ * W = 1 := Matrix.nonsing_inv_mul W hu
    have hE : echMat E r c T.rows T.cols = W⁻¹ * toMat T T.rows T.cols := by
      rw [hW, ← Matrix.mul_assoc, hw, Matrix.one_mul]
    have hir : i < T.rows := lt_of_lt_of_le hi h.r_le
    have hentry : ∀ y (hy : y < T.cols), (if c i ≤ y then E.e i y else 0)
        = ∑ q : Fin T.rows, W⁻¹ ⟨i, hir⟩ q * T.e q y := by
      intro y hy
      have := congrFun (congrFun hE ⟨i, hir⟩) ⟨y, hy⟩
      rw [Matrix.mul_apply] at this
      simp only [echMat, hi, true_and] at this
      exact this
    have h1 := hentry (c i) hx
    rw [if_pos (le_refl _)] at h1
    apply h.pivot i hi
    rw [h1]
    have h2 : ∀ q : Fin T.rows, W⁻¹ ⟨i, hir⟩ q * T.e q (c i)
        = ∑ l ∈ range (c i), a l * (W⁻¹ ⟨i, hir⟩ q * T.e q l) := by
      intro q
      rw [ha q q.isLt, Finset.mul_sum]
      refine Finset.sum_congr rfl (fun l _ => ?_)
      ring
    rw [Finset.sum_congr rfl (fun q _ => h2 q), Finset.sum_comm]
    refine Finset.sum_eq_zero (fun l hl => ?_)
    have hl' := Finset.mem_range.1 hl
    rw [← Finset.mul_sum, ← hentry l (by omega), if_neg (by omega), mul_zero]

end Verif
