import Verif.Lemmas.SolveSystem3
import Mathlib.LinearAlgebra.Matrix.Determinant.Basic

/-! The contract of the linear algebra routines can be met over every field. -/

namespace Verif

open Spec Finset

variable {F : Type} [Field F]

theorem exists_echelon_aux (m : Nat) (T : Nat → Nat → F) (n : Nat) :
    ∃ (r : Nat) (c : Nat → Nat) (V : Matrix (Fin m) (Fin m) F), r ≤ m ∧
      (∀ i j, i < j → j < r → c i < c j) ∧ (∀ i, i < r → c i < n) ∧ IsUnit V.det ∧
      (∀ i : Fin m, i.val < r → ∑ k, V i k * T k (c i) ≠ 0) ∧
      (∀ i : Fin m, i.val < r → ∀ j, j < c i → ∑ k, V i k * T k j = 0) ∧
      (∀ i : Fin m, r ≤ i.val → ∀ j, j < n → ∑ k, V i k * T k j = 0) := by
  induction n with
  | zero =>
    exact ⟨0, id, 1, Nat.zero_le _, by omega, by omega, by simp, by intro i hi; omega,
      by intro i hi; omega, by intro i _ j hj; omega⟩
  | succ n ih =>
    obtain ⟨r, c, V, hr, h1, h2, h3, h4, h5, h6⟩ := ih
    by_cases hz : ∀ i : Fin m, r ≤ i.val → ∑ k, V i k * T k n = 0
    · refine ⟨r, c, V, hr, h1, fun i hi => by have := h2 i hi; omega, h3, h4, h5, ?_⟩
      intro i hi j hj
      by_cases hjn : j = n
      · subst hjn; exact hz i hi
      · exact h6 i hi j (by omega)
    · push Not at hz
      obtain ⟨i0, hi0, hne⟩ := hz
      have hrm : r < m := by have := i0.isLt; omega
      set ρ : Fin m := ⟨r, hrm⟩ with hρ
      set V1 : Matrix (Fin m) (Fin m) F := V.submatrix (Equiv.swap ρ i0) id with hV1
      set s : Fin m → F := fun i => ∑ k, V1 i k * T k n with hs
      set t : Fin m → F := fun i => if r < i.val then s i / s ρ else 0 with ht
      set L : Matrix (Fin m) (Fin m) F := fun i k => (if i = k then 1 else 0) - (if k = ρ then t i else 0)
        with hL
      have htρ : t ρ = 0 := by simp [ht, hρ]
      have hsρ : s ρ ≠ 0 := by
        rw [hs]
        simp only [hV1, Matrix.submatrix_apply, Equiv.swap_apply_left, id_eq]
        exact hne
      have hLL : L * (Matrix.of fun i k => (if i = k then 1 else 0) + (if k = ρ then t i else 0)) = 1 := by
        ext i k
        rw [Matrix.mul_apply, hL]
        simp only [Matrix.of_apply, sub_mul, mul_add, ite_mul, one_mul, zero_mul, mul_ite, mul_one, mul_zero,
          Finset.sum_add_distrib]
        simp only [Finset.sum_ite_eq', Finset.mem_univ, if_true, htρ, mul_zero]
        rw [Matrix.one_apply]
        by_cases hk : k = ρ
        · subst hk; by_cases hik : i = ρ <;> simp [hik, htρ]
        · have : ρ ≠ k := Ne.symm hk
          simp [hk, this]
      have hLdet : IsUnit L.det := by
        have := congrArg Matrix.det hLL
        rw [Matrix.det_mul, Matrix.det_one] at this
        exact IsUnit.of_mul_eq_one _ this
      have hV1det : IsUnit V1.det := by
        rw [hV1, Matrix.det_permute]
        apply IsUnit.mul _ h3
        have : IsUnit ((Equiv.Perm.sign (Equiv.swap ρ i0) : ℤˣ) : ℤ) := Units.isUnit _
        have h := this.map (Int.castRingHom F)
        exact h
      have hrow : ∀ (i : Fin m) (j : Nat), ∑ k, (L * V1) i k * T k j
          = ∑ k, V1 i k * T k j - t i * ∑ k, V1 ρ k * T k j := by
        intro i j
        rw [Finset.mul_sum, ← Finset.sum_sub_distrib]
        refine Finset.sum_congr rfl (fun k _ => ?_)
        rw [Matrix.mul_apply, hL]
        simp only [sub_mul, ite_mul, one_mul, zero_mul, Finset.sum_sub_distrib, Finset.sum_ite_eq,
          Finset.sum_ite_eq', Finset.mem_univ, if_true]
        ring
      have hlow : ∀ i : Fin m, i.val < r → ∀ k, V1 i k = V i k := by
        intro i hi k
        rw [hV1, Matrix.submatrix_apply, Equiv.swap_apply_of_ne_of_ne]
        · rfl
        · intro h; rw [h] at hi; exact absurd hi (lt_irrefl _)
        · intro h; rw [h] at hi; omega
      have hlowrow : ∀ i : Fin m, i.val < r → ∀ j, ∑ k, (L * V1) i k * T k j = ∑ k, V i k * T k j := by
        intro i hi j
        rw [hrow]
        have : t i = 0 := by rw [ht]; simp only; rw [if_neg (by omega)]
        rw [this, zero_mul, sub_zero]
        exact Finset.sum_congr rfl (fun k _ => by rw [hlow i hi k])
      have hhigh : ∀ i : Fin m, r ≤ i.val → ∀ j, j < n → ∑ k, V1 i k * T k j = 0 := by
        intro i hi j hj
        have : r ≤ (Equiv.swap ρ i0 i).val := by
          rw [Equiv.swap_apply_def]
          split
          · exact hi0
          · split
            · exact le_refl _
            · exact hi
        exact h6 _ this j hj
      refine ⟨r + 1, fun i => if i = r then n else c i, L * V1, hrm, ?_, ?_, ?_, ?_, ?_, ?_⟩
      · intro i j hij hj
        simp only
        rw [if_neg (by omega)]
        by_cases hjr : j = r
        · rw [if_pos hjr]; exact h2 i (by omega)
        · rw [if_neg hjr]; exact h1 i j hij (by omega)
      · intro i hi
        simp only
        by_cases hir : i = r
        · rw [if_pos hir]; omega
        · rw [if_neg hir]; have := h2 i (by omega); omega
      · rw [Matrix.det_mul]; exact hLdet.mul hV1det
      · intro i hi
        simp only
        by_cases hir : i.val = r
        · rw [if_pos hir, hrow]
          have : i = ρ := Fin.ext hir
          rw [this, htρ, zero_mul, sub_zero]
          exact hsρ
        · rw [if_neg hir, hlowrow i (by omega)]
          exact h4 i (by omega)
      · intro i hi j hj
        simp only at hj
        by_cases hir : i.val = r
        · rw [if_pos hir] at hj
          rw [hrow, hhigh i (by omega) j hj, hhigh ρ (le_refl _) j hj, mul_zero, sub_zero]
        · rw [if_neg hir] at hj
          rw [hlowrow i (by omega)]
          exact h5 i (by omega) j hj
      · intro i hi j hj
        by_cases hjn : j = n
        · subst hjn
          rw [hrow]
          have : t i = s i / s ρ := by rw [ht]; simp only; rw [if_pos (by omega)]
          rw [this]
          have e1 : ∑ k, V1 i k * T k j = s i := rfl
          have e2 : ∑ k, V1 ρ k * T k j = s ρ := rfl
          rw [e1, e2, div_mul_cancel₀ _ hsρ, sub_self]
        · rw [hrow, hhigh i (by omega) j (by omega), hhigh ρ (le_refl _) j (by omega), mul_zero, sub_zero]

theorem exists_echelon (T : CMat F) : ∃ E r c, Echelon T E r c := by
  obtain ⟨r, c, V, hr, h1, h2, h3, h4, h5, h6⟩ := exists_echelon_aux T.rows T.e T.cols
  refine ⟨⟨T.rows, T.cols, fun i j => if hi : i < T.rows then ∑ k, V ⟨i, hi⟩ k * T.e k j else 0⟩, r, c,
    rfl, rfl, hr, h1, h2, ?_, ?_, ?_, V⁻¹, ?_, ?_⟩
  · intro i hi
    simp only
    rw [dif_pos (by omega)]
    exact h4 ⟨i, by omega⟩ hi
  · intro i hi j _ hj
    simp only
    rw [dif_pos (by omega)]
    exact h5 ⟨i, by omega⟩ hi j hj
  · intro i hi him j _ hj
    simp only
    rw [dif_pos him]
    exact h6 ⟨i, him⟩ hi j hj
  · exact Matrix.isUnit_nonsing_inv_det _ h3
  · have : echMat (⟨T.rows, T.cols, fun i j => if hi : i < T.rows then ∑ k, V ⟨i, hi⟩ k * T.e k j else 0⟩ :
        CMat F) r c T.rows T.cols = V * toMat T T.rows T.cols := by
      ext i j
      rw [Matrix.mul_apply, echMat]
      simp only [Fin.is_lt, dif_pos]
      by_cases hi : i.val < r
      · by_cases hj : c i.val ≤ j.val
        · rw [if_pos ⟨hi, hj⟩]; rfl
        · rw [if_neg (by tauto)]
          exact (h5 i hi j (by omega)).symm
      · rw [if_neg (by tauto)]
        exact (h6 i (by omega) j j.isLt).symm
    rw [this, ← Matrix.mul_assoc, Matrix.nonsing_inv_mul _ h3, Matrix.one_mul]

/-- Routines meeting the contract exist over every field. -/
theorem exists_linAlg (F : Type) [Field F] : ∃ la : LinAlg F, LinAlgOK la := by
  have h : ∀ T : CMat F, ∃ E : CMat F × Nat, ∃ c, Echelon T E.1 E.2 c := by
    intro T
    obtain ⟨E, r, c, h⟩ := exists_echelon T
    exact ⟨(E, r), c, h⟩
  choose g hg using h
  refine ⟨⟨g, fun Y => .ok (CMat.ofMatrix (toMat Y Y.rows Y.rows)⁻¹)⟩, hg, ?_⟩
  intro Y n hr hc hu
  subst hr
  refine ⟨_, rfl, rfl, rfl, ?_⟩
  have : toMat (CMat.ofMatrix (toMat Y Y.rows Y.rows)⁻¹) Y.rows Y.rows = (toMat Y Y.rows Y.rows)⁻¹ := by
    ext i j
    exact CMat.ofMatrix_e _ i j
  rw [this]
  exact Matrix.mul_nonsing_inv _ hu

end Verif
