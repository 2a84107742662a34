import Verif.Lemmas.SolveSystem
import Mathlib.LinearAlgebra.FiniteDimensional.Lemmas

namespace Verif

open Spec Finset

variable {F : Type} [Field F]

theorem tri1 {T E : CMat F} {r : Nat} {c : Nat → Nat} (h : Echelon T E r c) (a : Nat → F)
    (H : ∀ i, i < r → ∑ k ∈ range r, a k * (if c k ≤ c i then E.e k (c i) else 0) = 0) :
    ∀ k, k < r → a k = 0 := by
  intro k
  induction k using Nat.strong_induction_on with
  | _ k ih =>
    intro hk
    have := H k hk
    rw [Finset.sum_eq_single k] at this
    · rw [if_pos (le_refl _)] at this
      exact (mul_eq_zero.1 this).resolve_right (h.pivot k hk)
    · intro b hb hbk
      rw [Finset.mem_range] at hb
      rcases Nat.lt_or_ge b k with hlt | hge
      · rw [ih b hlt hb, zero_mul]
      · have := h.mono k b (by omega) hb
        rw [if_neg (by omega), mul_zero]
    · intro hn; exact absurd (Finset.mem_range.2 hk) hn

theorem tri2 {T E : CMat F} {r : Nat} {c : Nat → Nat} (h : Echelon T E r c) (x : Nat → F)
    (H : ∀ k, k < r → ∑ i ∈ range r, (if c k ≤ c i then E.e k (c i) else 0) * x i = 0) :
    ∀ i, i < r → x i = 0 := by
  have key : ∀ d i, i + d + 1 = r → x i = 0 := by
    intro d
    induction d using Nat.strong_induction_on with
    | _ d ih =>
      intro i hi
      have := H i (by omega)
      rw [Finset.sum_eq_single i] at this
      · rw [if_pos (le_refl _)] at this
        exact (mul_eq_zero.1 this).resolve_left (h.pivot i (by omega))
      · intro b hb hbi
        rw [Finset.mem_range] at hb
        rcases Nat.lt_or_ge b i with hlt | hge
        · have := h.mono b i hlt (by omega)
          rw [if_neg (by omega), zero_mul]
        · rw [ih (r - b - 1) (by omega) b (by omega), mul_zero]
      · intro hn; exact absurd (Finset.mem_range.2 (by omega)) hn
  intro i hi
  exact key (r - i - 1) i (by omega)

theorem echelon_entry {T E : CMat F} {r : Nat} {c : Nat → Nat} {W : Matrix (Fin T.rows) (Fin T.rows) F}
    (hW : toMat T T.rows T.cols = W * echMat E r c T.rows T.cols) (a j : Nat) (ha : a < T.rows)
    (hj : j < T.cols) :
    T.e a j = ∑ k : Fin T.rows, W ⟨a, ha⟩ k * (if k.val < r ∧ c k.val ≤ j then E.e k.val j else 0) := by
  have := congrFun (congrFun hW ⟨a, ha⟩) ⟨j, hj⟩
  rw [Matrix.mul_apply] at this
  exact this

/-- The pivot columns of `T` are independent. -/
theorem cols_indep {T E : CMat F} {r : Nat} {c : Nat → Nat} (h : Echelon T E r c) (x : Nat → F)
    (H : ∀ a, a < T.rows → ∑ i ∈ range r, T.e a (c i) * x i = 0) : ∀ i, i < r → x i = 0 := by
  obtain ⟨W, hu, hW⟩ := h.fac
  set z : Fin T.rows → F := fun k => ∑ i ∈ range r,
    (if k.val < r ∧ c k.val ≤ c i then E.e k.val (c i) else 0) * x i with hz
  have h1 : W.mulVec z = 0 := by
    funext a
    rw [Matrix.mulVec, dotProduct]
    have := H a a.isLt
    rw [Finset.sum_congr rfl (fun i hi => by
      rw [echelon_entry hW a (c i) a.isLt (h.lt i (Finset.mem_range.1 hi)), Finset.sum_mul])] at this
    rw [Finset.sum_comm] at this
    simp only [Pi.zero_apply]
    rw [← this]
    refine Finset.sum_congr rfl (fun k _ => ?_)
    rw [hz]
    simp only [Finset.mul_sum, mul_assoc]
  have h2 : z = 0 := Matrix.eq_zero_of_mulVec_eq_zero hu.ne_zero h1
  refine tri2 h x (fun k hk => ?_)
  have h3 := congrFun h2 ⟨k, by have := h.r_le; omega⟩
  simp only [hz, hk, true_and, Pi.zero_apply] at h3
  exact h3

/-- A combination of rows that vanishes at the pivot columns vanishes. -/
theorem rows_disjoint {S E : CMat F} {r : Nat} {c : Nat → Nat} (h : Echelon S E r c) (x : Nat → F)
    (H : ∀ i, i < r → ∑ l ∈ range S.rows, S.e l (c i) * x l = 0) :
    ∀ j, j < S.cols → ∑ l ∈ range S.rows, S.e l j * x l = 0 := by
  obtain ⟨W, hu, hW⟩ := h.fac
  set a : Nat → F := fun k => ∑ l : Fin S.rows,
    (if hk : k < S.rows then W l ⟨k, hk⟩ * x l else 0) with ha
  have key : ∀ j, j < S.cols → ∑ l ∈ range S.rows, S.e l j * x l
      = ∑ k ∈ range r, a k * (if c k ≤ j then E.e k j else 0) := by
    intro j hj
    rw [Finset.sum_range]
    rw [Finset.sum_congr rfl (fun (l : Fin S.rows) _ => by
      rw [echelon_entry hW l j l.isLt hj, Finset.sum_mul])]
    rw [Finset.sum_comm]
    have e1 : ∀ k : Fin S.rows, ∑ l : Fin S.rows,
        W l k * (if k.val < r ∧ c k.val ≤ j then E.e k.val j else 0) * x l
        = (if k.val < r then a k * (if c k.val ≤ j then E.e k.val j else 0) else 0) := by
      intro k
      by_cases hk : k.val < r
      · simp only [hk, true_and, if_true, ha, Finset.sum_mul]
        refine Finset.sum_congr rfl (fun l _ => ?_)
        rw [dif_pos k.isLt]
        generalize (if c k.val ≤ j then E.e k.val j else 0) = t
        ring
      · simp [hk]
    rw [Finset.sum_congr rfl (fun k _ => e1 k)]
    rw [← Finset.sum_range (n := S.rows)
      (fun k => if k < r then a k * (if c k ≤ j then E.e k j else 0) else 0), ← Finset.sum_filter]
    congr 1
    ext k
    have := h.r_le
    simp only [Finset.mem_filter, Finset.mem_range]
    omega
  have ha0 := tri1 h a (fun i hi => by rw [← key (c i) (h.lt i hi)]; exact H i hi)
  intro j hj
  rw [key j hj]
  exact Finset.sum_eq_zero (fun k hk => by rw [ha0 k (Finset.mem_range.1 hk), zero_mul])

/-- A combination of columns of `T` that vanishes at the pivot columns of the transpose vanishes. -/
theorem image_disjoint {T E : CMat F} {r : Nat} {c : Nat → Nat} (h : Echelon T.tr E r c) (x : Nat → F)
    (H : ∀ i, i < r → ∑ l ∈ range T.cols, T.e (c i) l * x l = 0) :
    ∀ j, j < T.rows → ∑ l ∈ range T.cols, T.e j l * x l = 0 :=
  rows_disjoint h x H

theorem echelon_rank {T E : CMat F} {r : Nat} {c : Nat → Nat} (h : Echelon T E r c) :
    (toMat T T.rows T.cols).rank = r := by
  apply le_antisymm
  · obtain ⟨W, hu, hW⟩ := h.fac
    have : toMat T T.rows T.cols
        = (W.submatrix id (Fin.castLE h.r_le)) *
          (Matrix.of fun (i : Fin r) (j : Fin T.cols) => if c i.val ≤ j.val then E.e i.val j.val else 0) := by
      ext a j
      rw [Matrix.mul_apply]
      have := echelon_entry hW a j a.isLt j.isLt
      rw [show toMat T T.rows T.cols a j = T.e a j from rfl, this]
      simp only [Matrix.submatrix_apply, id_eq]
      rw [← Finset.sum_subset (Finset.subset_univ (Finset.univ.map (Fin.castLEEmb h.r_le)))]
      · rw [Finset.sum_map]
        refine Finset.sum_congr rfl (fun k _ => ?_)
        simp [Fin.castLEEmb]
      · intro k _ hk
        have : ¬ k.val < r := by
          intro hlt
          apply hk
          rw [Finset.mem_map]
          exact ⟨⟨k.val, hlt⟩, Finset.mem_univ _, rfl⟩
        simp [this]
    rw [this]
    exact (Matrix.rank_mul_le_right _ _).trans (Matrix.rank_le_height _)
  · have hli : LinearIndependent F (fun i : Fin r => (toMat T T.rows T.cols).col ⟨c i, h.lt i i.isLt⟩) := by
      rw [Fintype.linearIndependent_iff]
      intro g hg i
      have := cols_indep h (fun i => if hi : i < r then g ⟨i, hi⟩ else 0) (by
        intro a ha
        have := congrFun hg ⟨a, ha⟩
        simp only [Finset.sum_apply, Pi.smul_apply, Pi.zero_apply, smul_eq_mul] at this
        rw [← this, Finset.sum_range]
        refine Finset.sum_congr rfl (fun i _ => ?_)
        rw [dif_pos i.isLt, mul_comm]; rfl) i i.isLt
      simpa using this
    rw [Matrix.rank_eq_finrank_span_cols]
    have h1 := finrank_span_eq_card hli
    rw [Fintype.card_fin] at h1
    rw [← h1]
    apply Submodule.finrank_mono
    apply Submodule.span_mono
    rintro _ ⟨i, rfl⟩
    exact ⟨_, rfl⟩

end Verif
