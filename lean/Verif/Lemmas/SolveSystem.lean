import Verif.Spec.SolveSystem
import Verif.Lemmas.Matrix
import Mathlib.LinearAlgebra.Matrix.NonsingularInverse
import Mathlib.LinearAlgebra.Matrix.ToLinearEquiv
import Mathlib.LinearAlgebra.Matrix.Block

namespace Verif

open Spec

/-! ### the scans -/

theorem scan_eq (z : Nat → Bool) (fuel j k : Nat) (hjk : j ≤ k) (hk : k ≤ j + fuel)
    (hz : ∀ x, j ≤ x → x < k → z x = true) (hnz : k < j + fuel → z k = false) :
    scan z fuel j = k := by
  induction fuel generalizing j with
  | zero => rw [scan]; omega
  | succ fuel ih =>
    rw [scan]
    by_cases h : j = k
    · subst h; rw [hnz (by omega)]; rfl
    · rw [if_pos (hz j (le_refl _) (by omega))]
      exact ih (j + 1) (by omega) (by omega) (fun x h1 h2 => hz x (by omega) h2)
        (fun h => hnz (by omega))

theorem Spec.Echelon.le {F : Type} [Field F] {T E : CMat F} {r : Nat} {c : Nat → Nat}
    (h : Echelon T E r c) (i : Nat) (hi : i < r) : i ≤ c i := by
  induction i with
  | zero => omega
  | succ i ih =>
    have := ih (by omega)
    have := h.mono i (i + 1) (by omega) hi
    omega

theorem pivotCols_ok {F : Type} [Field F] [DecidableEq F] {T E : CMat F} {r : Nat} {c : Nat → Nat}
    (h : Echelon T E r c) : pivotCols E r = .ok ((List.range r).map c) := by
  unfold pivotCols
  obtain ⟨s, e, hs⟩ := forRange_inv (n := r) (s := ((0 : Nat), ([] : List Nat)))
    (f := fun i st =>
      let j := scan (fun j => decide (E.e i j = 0)) (E.cols - st.1) st.1
      if E.cols ≤ j then .error .ub else .ok (j + 1, st.2 ++ [j]))
    (fun i st => st.2 = (List.range i).map c ∧ i ≤ st.1 ∧ st.1 ≤ T.cols ∧ (i < r → st.1 ≤ c i))
    ⟨rfl, Nat.zero_le _, Nat.zero_le _, fun _ => Nat.zero_le _⟩
    (by
      rintro i ⟨j, l⟩ hi ⟨h1, h2, h3, h4⟩
      simp only at h1 h2 h3 h4
      have hlt := h.lt i hi
      have h4 := h4 hi
      have hsc : scan (fun j => decide (E.e i j = 0)) (E.cols - j) j = c i := by
        rw [h.cols]
        apply scan_eq _ _ _ _ h4 (by omega)
        · intro x hx1 hx2
          simp [h.zero i hi x (by omega) hx2]
        · intro _
          simp [h.pivot i hi]
      refine ⟨(c i + 1, l ++ [c i]), ?_, ?_, ?_, ?_, ?_⟩
      · simp only [hsc]
        rw [if_neg (by rw [h.cols]; omega)]
      · rw [h1, List.range_succ, List.map_append]; rfl
      · have := h.le i hi; simp only; omega
      · simp only; omega
      · intro hi'
        have := h.mono i (i + 1) (by omega) hi'
        exact this)
  rw [e, Res.bind_ok, Res.pure_eq, hs.1]

/-- The columns below `j` that are not pivots. -/
def npBelow (r : Nat) (c : Nat → Nat) (j : Nat) : List Nat :=
  (List.range j).filter (fun x => decide (x ∉ (List.range r).map c))

theorem npBelow_add (r : Nat) (c : Nat → Nat) (j k : Nat)
    (h : ∀ x, j ≤ x → x < j + k → ∀ i, i < r → c i ≠ x) :
    npBelow r c (j + k) = npBelow r c j ++ List.range' j k := by
  unfold npBelow
  rw [List.range_add, List.filter_append]
  congr 1
  rw [List.range'_eq_map_range]
  apply List.filter_eq_self.2
  intro x hx
  obtain ⟨y, hy, rfl⟩ := List.mem_map.1 hx
  rw [List.mem_range] at hy
  simp only [List.mem_map, List.mem_range, not_exists, not_and, decide_eq_true_eq]
  intro i hi
  exact h _ (by omega) (by omega) i hi

theorem npBelow_pivot (r : Nat) (c : Nat → Nat) (i : Nat) (hi : i < r) :
    npBelow r c (c i + 1) = npBelow r c (c i) := by
  unfold npBelow
  rw [List.range_succ, List.filter_append]
  rw [List.filter_cons_of_neg]
  · simp
  · simp only [decide_eq_true_eq, not_not]
    exact List.mem_map.2 ⟨i, List.mem_range.2 hi, rfl⟩

theorem npBelow_length (r : Nat) (c : Nat → Nat) (n : Nat) (hc : ∀ i j, i < j → j < r → c i < c j)
    (hn : ∀ i, i < r → c i < n) : (npBelow r c n).length + r = n := by
  have hnd : ((List.range r).map c).Nodup := by
    apply List.Nodup.map_on _ List.nodup_range
    intro x hx y hy hxy
    rw [List.mem_range] at hx hy
    rcases Nat.lt_trichotomy x y with h | h | h
    · have := hc x y h hy; omega
    · exact h
    · have := hc y x h hx; omega
  have h1 : (npBelow r c n).toFinset = Finset.range n \ ((List.range r).map c).toFinset := by
    ext x
    simp [npBelow]
  have h2 : (npBelow r c n).Nodup := List.nodup_range.filter _
  have h3 : ((List.range r).map c).toFinset ⊆ Finset.range n := by
    intro x hx
    rw [List.mem_toFinset] at hx
    obtain ⟨i, hi, rfl⟩ := List.mem_map.1 hx
    exact Finset.mem_range.2 (hn i (List.mem_range.1 hi))
  rw [← List.toFinset_card_of_nodup h2, h1, Finset.card_sdiff_of_subset h3, Finset.card_range,
    List.toFinset_card_of_nodup hnd]
  have := Finset.card_le_card h3
  rw [Finset.card_range, List.toFinset_card_of_nodup hnd] at this
  simp at this ⊢
  omega

theorem nonPivots_ok {F : Type} [Field F] [DecidableEq F] {T E : CMat F} {r : Nat} {c : Nat → Nat}
    (h : Echelon T E r c) : nonPivots E (T.cols - r) = .ok (npBelow r c T.cols) := by
  unfold nonPivots
  obtain ⟨s, e, hs⟩ := forRange_inv (n := E.rows) (s := ((0 : Nat), ([] : List Nat)))
    (f := fun i st =>
      let j := scan (fun j => decide (E.e i j = 0)) (E.cols - st.1) st.1
      .ok (j + 1, st.2 ++ List.range' st.1 (j - st.1)))
    (fun i st => i ≤ st.1 ∧
      (i ≤ r → st.1 ≤ T.cols ∧ (i < r → st.1 ≤ c i) ∧ st.2 = npBelow r c st.1 ∧
        ∀ k, k < i → c k < st.1) ∧
      (r < i → T.cols < st.1 ∧ st.2 = npBelow r c T.cols))
    ⟨Nat.zero_le _, fun _ => ⟨Nat.zero_le _, fun _ => Nat.zero_le _, rfl, by intro k hk; omega⟩,
      by omega⟩
    (by
      rintro i ⟨j, l⟩ hi ⟨h0, h1, h2⟩
      simp only at h0 h1 h2
      refine ⟨_, rfl, ?_⟩
      rcases Nat.lt_trichotomy i r with hir | hir | hir
      · obtain ⟨h3, h4, h5, h6⟩ := h1 hir.le
        have h4 := h4 hir
        have hlt := h.lt i hir
        have hsc : scan (fun j => decide (E.e i j = 0)) (E.cols - j) j = c i := by
          rw [h.cols]
          apply scan_eq _ _ _ _ h4 (by omega)
          · intro x hx1 hx2
            simp [h.zero i hir x (by omega) hx2]
          · intro _
            simp [h.pivot i hir]
        simp only [hsc]
        refine ⟨by have := h.le i hir; omega, fun _ => ⟨by omega, ?_, ?_, ?_⟩, by omega⟩
        · intro hi'
          exact h.mono i (i + 1) (by omega) hi'
        · rw [npBelow_pivot r c i hir]
          have := npBelow_add r c j (c i - j) (by
            intro x hx1 hx2 k hk hkx
            rcases Nat.lt_trichotomy k i with hk' | hk' | hk'
            · have := h6 k hk'; omega
            · subst hk'; omega
            · have := h.mono i k hk' hk; omega)
          rw [show j + (c i - j) = c i by omega] at this
          rw [this, h5]
        · intro k hk
          by_cases hki : k = i
          · subst hki; omega
          · have := h6 k (by omega); omega
      · obtain ⟨h3, -, h5, h6⟩ := h1 hir.le
        have hsc : scan (fun j => decide (E.e i j = 0)) (E.cols - j) j = T.cols := by
          rw [h.cols]
          apply scan_eq _ _ _ _ h3 (by omega)
          · intro x hx1 hx2
            simp [h.zero' i hir.ge (by rw [← h.rows]; exact hi) x (by omega) hx2]
          · intro hh; omega
        simp only [hsc]
        refine ⟨by omega, by omega, fun _ => ⟨by omega, ?_⟩⟩
        have := npBelow_add r c j (T.cols - j) (by
          intro x hx1 hx2 k hk hkx
          have := h6 k (by omega); omega)
        rw [show j + (T.cols - j) = T.cols by omega] at this
        rw [this, h5]
      · obtain ⟨h3, h5⟩ := h2 hir
        have hsc : scan (fun j => decide (E.e i j = 0)) (E.cols - j) j = j := by
          rw [h.cols, show T.cols - j = 0 by omega]; rfl
        simp only [hsc]
        refine ⟨by omega, by omega, fun _ => ⟨by omega, ?_⟩⟩
        rw [h5]; simp)
  rw [e, Res.bind_ok]
  have hB : s.2 ++ List.range' s.1 (E.cols - s.1) = npBelow r c T.cols := by
    rw [h.cols]
    have hr := h.r_le
    rw [← h.rows] at hr
    rcases Nat.lt_or_ge r E.rows with hlt | hge
    · obtain ⟨h3, h5⟩ := hs.2.2 hlt
      rw [h5, show T.cols - s.1 = 0 by omega]; simp
    · obtain ⟨h3, -, h5, h6⟩ := hs.2.1 hge
      have := npBelow_add r c s.1 (T.cols - s.1) (by
        intro x hx1 hx2 k hk hkx
        have := h6 k (by omega); omega)
      rw [show s.1 + (T.cols - s.1) = T.cols by omega] at this
      rw [this, h5]
  simp only [hB]
  have hlen := npBelow_length r c T.cols h.mono h.lt
  rw [if_pos (by omega)]
  rfl

end Verif
