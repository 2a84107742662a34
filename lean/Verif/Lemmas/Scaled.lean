import Verif.Lemmas.FrobFun
import Verif.Spec.Scaled

/-! Classes without denominators. -/

namespace Verif

open Spec MvPolynomial

variable {R : Type} [CommRing R]

theorem scaledExact_eq {n d : ℕ} (f : MvPolynomial (Fin (n + 1)) R) : scaledExact f d = Ex f d := by
  apply le_antisymm
  · refine Submodule.span_le.2 ?_
    rintro w ⟨m, e, i, F, hm, he, hF, rfl⟩
    have h1 : F * pderiv i f - pderiv i F = ∑ a ∈ F.support, coeff a F •
        (xpow R (fun j => ((a j : ℕ) : ℤ)) * pderiv i f - pderiv i (xpow R (fun j => ((a j : ℕ) : ℤ)))) := by
      have hx : ∀ a : Fin (n + 1) →₀ ℕ, xpow R (fun j => ((a j : ℕ) : ℤ)) = monomial a 1 := by
        intro a
        rw [xpow_of_nonneg (fun j => by positivity)]
        congr 1
        ext j; simp
      conv_lhs => rw [F.as_sum]
      rw [Finset.sum_mul, map_sum, ← Finset.sum_sub_distrib]
      refine Finset.sum_congr rfl (fun a _ => ?_)
      rw [hx, smul_sub, ← smul_mul_assoc, smul_monomial, smul_eq_mul, mul_one,
        ← (pderiv i).map_smul, smul_monomial, smul_eq_mul, mul_one]
    rw [SetLike.mem_coe, h1]
    refine Submodule.sum_mem _ (fun a ha => Submodule.smul_mem _ _ ?_)
    have h0 : ∀ j, 0 ≤ (fun j => ((a j : ℕ) : ℤ)) j := fun j => by positivity
    rw [pderiv_xpow h0]
    refine Ex_mem f d m i _ hm h0 ?_
    have hdeg : a.degree = e := (hF.degree_eq_sum_deg_support ha).symm
    rw [Finsupp.degree_eq_sum] at hdeg
    rw [← Nat.cast_sum, hdeg]
    exact_mod_cast he
  · refine Submodule.span_le.2 ?_
    rintro w ⟨m, i, a, hm, ha, hs, rfl⟩
    obtain ⟨e, he⟩ : ∃ e : ℕ, ∑ j, a j = e := ⟨(∑ j, a j).toNat, by
      rw [Int.toNat_of_nonneg (Finset.sum_nonneg (fun j _ => ha j))]⟩
    rw [← pderiv_xpow ha]
    exact Submodule.subset_span ⟨m, e, i, _, hm, by rw [he] at hs; exact_mod_cast hs, xpow_isHomogeneous a e he, rfl⟩

theorem tailPoly_eq [DecidableEq R] (D : DR R) {p m N : ℕ} (hm : 1 ≤ m) (hN : 1 ≤ N) (ei : IVec) :
    tailPoly D p m N ei 0 = scaledSeries (DRpoly D) p m N (ev D.n ei) := by
  rw [tailPoly, show m + N - 1 + 1 = m + N by omega, zero_add,
    ← Finset.sum_Ico_consecutive _ hm (show m ≤ m + N by omega), Finset.sum_eq_zero, zero_add,
    Finset.sum_Ico_eq_sum_range, Nat.add_sub_cancel_left, scaledSeries]
  · refine Finset.sum_congr rfl (fun j hj => ?_)
    rw [newPoly, if_pos (by omega), Nat.add_sub_cancel_left]
    rfl
  · intro k hk
    rw [newPoly, if_neg (by have := (Finset.mem_Ico.1 hk).2; omega)]

/-- The series with its factorial, as a form. -/
theorem toForms_series {n d p m N : ℕ} {f : MvPolynomial (Fin (n + 1)) R} (hf : f.IsHomogeneous d) (hd : n < d) (hp : 1 ≤ p)
    (hm : 1 ≤ m) {b : Fin (n + 1) → ℤ} (hb : ∑ i, b i = (m : ℤ) * d - (n + 1)) :
    toForms R n d (scaledSeries f p m N b) = ((frobFact p m N : ℕ) : R) • frobSeries f p m N b := by
  rw [scaledSeries, map_sum, frobSeries, Finset.smul_sum]
  refine Finset.sum_congr rfl (fun j hj => ?_)
  have hj := Finset.mem_range.1 hj
  have hk : 1 ≤ p * (m + j) := Nat.mul_pos hp (by omega)
  have hle : n + 1 ≤ p * (m * d) := by
    have h1 : 1 ≤ p * m := Nat.mul_pos hp hm
    calc n + 1 ≤ d := hd
      _ ≤ (p * m) * d := Nat.le_mul_of_pos_left _ h1
      _ = _ := by ring
  have hx : (xpow R (fun i => (p : Int) * (b i + 1) - 1)).IsHomogeneous (p * (m * d) - (n + 1)) := by
    apply xpow_isHomogeneous
    rw [Finset.sum_sub_distrib, ← Finset.mul_sum, Finset.sum_add_distrib, hb, Nat.cast_sub hle]
    simp
  have hf' : (expand p (f ^ j)).IsHomogeneous (p * (d * j)) := expand_isHomogeneous (hf.pow j) p
  have hphi : phi p (m + N - 1) (m + j) = frobFact p m N / (p * (m + j) - 1).factorial := rfl
  rw [map_smul, toForms_homogeneous (by omega) (k := p * (m + j)) (by
    have : p * (m + j) * d = p * (d * j) + p * (m * d) := by ring
    omega) (hf'.mul hx), ← hphi, show frobFact p m N = _ from (phi_mul (p := p) (show m + j ≤ m + N - 1 by omega)).symm]
  simp only [form, Finsupp.smul_single, smul_smul]
  congr 2
  push_cast
  ring

/-- A column, in terms of forms. -/
theorem Spec.FrobColumn.cohomologous {n d p m N : ℕ} (hp : p.Prime) {f : MvPolynomial (Fin (n + 1)) R} (hf : f.IsHomogeneous d)
    (hd : n < d) (hm : 1 ≤ m) {b : Fin (n + 1) → ℤ} (hb : ∑ i, b i = (m : ℤ) * d - (n + 1)) {basis : List IVec}
    (hbas : ∀ t ∈ basis, ∃ k : ℕ, 1 ≤ k ∧ IsTuple (n + 1) ((k : ℤ) * d - (n + 1)) t) {F : ℕ → R}
    (h : FrobColumn f d p basis m N b F) :
    Cohomologous f d (((frobFact p m N : ℕ) : R) • ((p ^ (n - 1) : ℕ) : R) • frobSeries f p m N b)
      (((frobFact p m N : ℕ) : R) • basisForm n d basis F) := by
  obtain ⟨c, h1, h2⟩ := h
  rw [SeriesCoords, scaledExact_eq] at h1
  have h3 := toForms_Ex (by omega) f hf h1
  rw [map_sub, toForms_series hf hd hp.one_lt.le hm hb] at h3
  have h4 : ((frobFact p m N : ℕ) : R) • basisForm n d basis F =
      ((p ^ (n - 1) : ℕ) : R) • toForms R n d (combo n basis c) := by
    rw [combo, map_sum, basisForm, Finset.smul_sum, Finset.smul_sum]
    refine Finset.sum_congr rfl (fun k hk => ?_)
    have hk := Finset.mem_range.1 hk
    have hmem : basis.getD k [] ∈ basis := by
      rw [getD_getElem _ _ _ hk]; exact List.getElem_mem hk
    obtain ⟨k', hk1, ht⟩ := hbas _ hmem
    have hle : n + 1 ≤ k' * d := le_trans (by omega) (Nat.le_mul_of_pos_left _ hk1)
    have hx : (xpow R (ev n (basis.getD k []))).IsHomogeneous (k' * d - (n + 1)) := by
      apply xpow_isHomogeneous
      rw [sum_ev_tuple ht, Nat.cast_sub hle]
      push_cast; rfl
    have h5 := h2 k hk
    rw [poleOrder_eq (by omega) ht] at h5
    rw [map_smul, toForms_homogeneous (by omega) (k := k') (by omega) hx, poleOrder_eq (by omega) ht]
    simp only [form, Finsupp.smul_single, smul_smul]
    congr 2
    generalize hv : padicValNat p (frobFact p m N) = v at h5
    have hfac : frobFact p m N = p ^ v * (frobFact p m N / p ^ v) :=
      (Nat.mul_div_cancel' (by rw [← hv]; exact pow_padicValNat_dvd)).symm
    generalize frobFact p m N / p ^ v = u at h5 hfac
    rw [hfac]
    rcases Nat.le_total (n - 1) v with hle' | hle'
    · obtain ⟨s, rfl⟩ := Nat.exists_eq_add_of_le hle'
      rw [Nat.add_sub_cancel_left, show n - 1 - (n - 1 + s) = 0 by omega, pow_zero, one_mul] at h5
      rw [pow_add]
      push_cast at h5 ⊢
      linear_combination (p : R) ^ (n - 1) * h5
    · obtain ⟨s, hs⟩ := Nat.exists_eq_add_of_le hle'
      rw [hs, Nat.add_sub_cancel_left, show v - (v + s) = 0 by omega, pow_zero, mul_one] at h5
      rw [hs, pow_add]
      push_cast at h5 ⊢
      linear_combination (p : R) ^ v * h5
  rw [Cohomologous, h4, smul_comm, ← smul_sub]
  exact Submodule.smul_mem _ _ h3

theorem coords_of_loops [DecidableEq R] {D : DR R} {p m N : ℕ} (hm : 1 ≤ m) (hN : 1 ≤ N) {ei : IVec} {c : ℕ → R}
    (h2 : tailPoly D p m N ei 0 - ∑ r ∈ Finset.range D.basis.length, c r • xpow R (ev D.n (D.basis.getD r [])) ∈
      Ex (DRpoly D) D.d) : SeriesCoords (DRpoly D) D.d p D.basis m N (ev D.n ei) c := by
  rw [SeriesCoords, scaledExact_eq, ← tailPoly_eq D hm hN]
  exact h2

/-- From the results of the loops and of the division to the column. -/
theorem column_of_loops [DecidableEq R] {D : DR R} {p m N : ℕ} (hm : 1 ≤ m) (hN : 1 ≤ N) {ei : IVec} {F F' c : ℕ → R}
    (h1 : ∀ r, r < D.basis.length → F r = (poleFact D r : R) * c r)
    (h2 : tailPoly D p m N ei 0 - ∑ r ∈ Finset.range D.basis.length, c r • xpow R (ev D.n (D.basis.getD r [])) ∈
      Ex (DRpoly D) D.d)
    (h3 : ∀ r, r < D.basis.length →
      ((frobFact p m N / p ^ padicValNat p (frobFact p m N) * p ^ (padicValNat p (frobFact p m N) - (D.n - 1)) : ℕ) : R) *
        F' r = ((p ^ (D.n - 1 - padicValNat p (frobFact p m N)) : ℕ) : R) * F r) :
    FrobColumn (DRpoly D) D.d p D.basis m N (ev D.n ei) F' := by
  refine ⟨c, coords_of_loops hm hN h2, fun k hk => ?_⟩
  rw [h3 k hk, h1 k hk, ← mul_assoc]
  congr 1
  push_cast
  rfl

end Verif
