import Verif.Lemmas.Picard

/-!
Lemmas for C43: cyclotomic polynomials among the irreducible ones, and counting roots.
-/

namespace Verif

open Polynomial Spec

/-- `Φ_k(pT)`. -/
noncomputable def cycS (p k : ℕ) : ℤ[X] := (cyclotomic k ℤ).comp (C (p : ℤ) * X)

theorem comp_coeff (f : ℤ[X]) (p i : ℕ) : (f.comp (C (p : ℤ) * X)).coeff i = f.coeff i * (p : ℤ) ^ i := by
  rw [comp_C_mul_X_coeff]

theorem comp_inj {p : ℕ} (hp : 0 < p) {f g : ℤ[X]} (h : f.comp (C (p : ℤ) * X) = g.comp (C (p : ℤ) * X)) : f = g := by
  ext i
  have := congrArg (fun q => q.coeff i) h
  simp only [comp_coeff] at this
  exact mul_right_cancel₀ (pow_ne_zero _ (by exact_mod_cast hp.ne')) this

theorem cyclotomic_coeff_zero_unit {k : ℕ} (hk : 0 < k) : IsUnit ((cyclotomic k ℤ).coeff 0) := by
  rcases (show k = 1 ∨ 1 < k by omega) with h | h
  · rw [h, cyclotomic_one]; simp
  · rw [cyclotomic_coeff_zero ℤ h]; exact isUnit_one

theorem cycS_primitive {p k : ℕ} (hk : 0 < k) : (cycS p k).IsPrimitive := by
  rw [isPrimitive_iff_isUnit_of_C_dvd]
  intro r hr
  have := (C_dvd_iff_dvd_coeff r _).1 hr 0
  rw [cycS, comp_coeff, pow_zero, mul_one] at this
  exact isUnit_of_dvd_unit this (cyclotomic_coeff_zero_unit hk)

theorem cycS_irreducible {p k : ℕ} (hp : 0 < p) (hk : 0 < k) : Irreducible (cycS p k) := by
  rw [IsPrimitive.Int.irreducible_iff_irreducible_map_cast (cycS_primitive hk)]
  have e : (cycS p k).map (Int.castRingHom ℚ) = (cyclotomic k ℚ).comp (C (p : ℚ) * X) := by
    rw [cycS, Polynomial.map_comp, map_cyclotomic]
    simp
  rw [e]
  have hp' : (p : ℚ) ≠ 0 := by exact_mod_cast hp.ne'
  letI : Invertible (p : ℚ) := invertibleOfNonzero hp'
  have e2 : (cyclotomic k ℚ).comp (C (p : ℚ) * X) = algEquivCMulXAddC (p : ℚ) 0 (cyclotomic k ℚ) := by
    rw [algEquivCMulXAddC_apply]
    rw [C_0, add_zero]
    rfl
  rw [e2, MulEquiv.irreducible_iff]
  exact cyclotomic.irreducible_rat hk

theorem cycS_lead {p k : ℕ} (hp : 0 < p) : 0 < (cycS p k).leadingCoeff := by
  have hp' : (p : ℤ) ≠ 0 := by exact_mod_cast hp.ne'
  have hd : (C (p : ℤ) * X).natDegree = 1 := natDegree_C_mul_X _ hp'
  rw [cycS, leadingCoeff_comp (by rw [hd]; norm_num), (cyclotomic.monic k ℤ).leadingCoeff, leadingCoeff_C_mul_X, one_mul]
  positivity

theorem cycS_natDegree {p k : ℕ} (hp : 0 < p) : (cycS p k).natDegree = k.totient := by
  have hp' : (p : ℤ) ≠ 0 := by exact_mod_cast hp.ne'
  rw [cycS, natDegree_comp, natDegree_C_mul_X _ hp', mul_one, natDegree_cyclotomic]

theorem root_cycS {p k : ℕ} (z : ℂ) : eval z ((cycS p k).map (Int.castRingHom ℂ)) = eval (p * z) (cyclotomic k ℂ) := by
  rw [cycS, Polynomial.map_comp, map_cyclotomic, eval_comp]
  simp

/-- An irreducible polynomial with a root that is a root of unity divided by `p` is `Φ_k(pT)`. -/
theorem eq_cycS {p : ℕ} (hp : 0 < p) {g : ℤ[X]} (hg : Irreducible g) (hd : 0 < g.natDegree) (hl : 0 < g.leadingCoeff)
    {z : ℂ} (hz : eval z (g.map (Int.castRingHom ℂ)) = 0) (hu : IsRootOfUnity (p * z)) :
    ∃ k, 0 < k ∧ g = cycS p k := by
  obtain ⟨m, hm, hpow⟩ := hu
  obtain ⟨k, hk⟩ : ∃ k, k = orderOf ((p : ℂ) * z) := ⟨_, rfl⟩
  have hk0 : 0 < k := by rw [hk, orderOf_pos_iff, isOfFinOrder_iff_pow_eq_one]; exact ⟨m, hm, hpow⟩
  have hprim : IsPrimitiveRoot ((p : ℂ) * z) k := hk ▸ IsPrimitiveRoot.orderOf _
  have hroot : eval z ((cycS p k).map (Int.castRingHom ℂ)) = 0 := by
    rw [root_cycS]
    exact hprim.isRoot_cyclotomic hk0
  refine ⟨k, hk0, ?_⟩
  have hgp : g.IsPrimitive := hg.isPrimitive (by omega)
  -- both have `z` as a root, hence are associated to its minimal polynomial
  have toQ : ∀ f : ℤ[X], aeval z (f.map (Int.castRingHom ℚ)) = eval z (f.map (Int.castRingHom ℂ)) := by
    intro f
    rw [aeval_def, eval₂_map, eval_map]
    congr 1
  have h1 := minpoly.dvd ℚ z ((toQ g).trans hz)
  have h2 := minpoly.dvd ℚ z ((toQ (cycS p k)).trans hroot)
  have hgQ := (IsPrimitive.Int.irreducible_iff_irreducible_map_cast hgp).1 hg
  have hint : IsIntegral ℚ z := by
    refine isAlgebraic_iff_isIntegral.1 ⟨g.map (Int.castRingHom ℚ), hgQ.ne_zero, (toQ g).trans hz⟩
  have h3 : g.map (Int.castRingHom ℚ) ∣ (cycS p k).map (Int.castRingHom ℚ) := by
    have hnu : ¬ IsUnit (minpoly ℚ z) := minpoly.not_isUnit ℚ z
    exact ((hgQ.dvd_iff.1 h1).resolve_left hnu).dvd.trans h2
  have h4 : g ∣ cycS p k := (IsPrimitive.Int.dvd_iff_map_cast_dvd_map_cast _ _ hgp).2 h3
  have h5 : Associated g (cycS p k) := ((cycS_irreducible hp hk0).dvd_iff.1 h4).resolve_left hg.not_isUnit |>.symm
  obtain ⟨u, hu⟩ := h5
  obtain ⟨c, hc, hcu⟩ := Polynomial.isUnit_iff.1 u.isUnit
  rw [← hcu] at hu
  rcases Int.isUnit_iff.1 hc with h | h
  · rw [h, C_1, mul_one] at hu; exact hu
  · exfalso
    have := cycS_lead (k := k) hp
    rw [← hu, h, leadingCoeff_mul, leadingCoeff_C] at this
    linarith

open Classical in
/-- Number of complex roots `z` with `p z` a root of unity. -/
noncomputable def invRoots (p : ℕ) (g : ℤ[X]) : ℕ :=
  ((g.map (Int.castRingHom ℂ)).roots.filter (fun z => IsRootOfUnity (p * z))).card

theorem invRoots_irreducible {p : ℕ} (hp : 0 < p) {g : ℤ[X]} (hg : Irreducible g) (hd : 0 < g.natDegree)
    (hl : 0 < g.leadingCoeff) :
    ((∃ k, 0 < k ∧ g = cycS p k) ∧ invRoots p g = g.natDegree) ∨
    ((¬ ∃ k, 0 < k ∧ g = cycS p k) ∧ invRoots p g = 0) := by
  classical
  by_cases h : ∃ k, 0 < k ∧ g = cycS p k
  · left
    refine ⟨h, ?_⟩
    obtain ⟨k, hk, rfl⟩ := h
    rw [invRoots, Multiset.filter_eq_self.2, IsAlgClosed.card_roots_eq_natDegree, natDegree_map_eq_of_injective]
    · exact (Int.castRingHom ℂ).injective_int
    · intro z hz
      have hz := (mem_roots'.1 hz).2
      rw [IsRoot.def, root_cycS] at hz
      haveI : NeZero ((k : ℂ)) := ⟨by exact_mod_cast hk.ne'⟩
      have := isRoot_cyclotomic_iff.1 (IsRoot.def.2 hz)
      exact ⟨k, hk, this.pow_eq_one⟩
  · right
    refine ⟨h, ?_⟩
    rw [invRoots, Multiset.card_eq_zero, Multiset.filter_eq_nil]
    intro z hz hu
    exact h (eq_cycS hp hg hd hl (mem_roots'.1 hz).2 hu)

theorem invRoots_prod {p : ℕ} (l : List (ℤ[X] × Nat)) (c : ℤ) (hne : C c * (l.map (fun g => g.1 ^ g.2)).prod ≠ 0) :
    invRoots p (C c * (l.map (fun g => g.1 ^ g.2)).prod) = (l.map (fun g => g.2 * invRoots p g.1)).sum := by
  classical
  induction l with
  | nil =>
    rw [invRoots]
    simp
  | cons g l ih =>
    have e : C c * ((g :: l).map (fun g => g.1 ^ g.2)).prod = g.1 ^ g.2 * (C c * (l.map (fun g => g.1 ^ g.2)).prod) := by
      rw [List.map_cons, List.prod_cons]; ring
    rw [e] at hne ⊢
    have h2 := right_ne_zero_of_mul hne
    have hinj := (Int.castRingHom ℂ).injective_int
    have hne' : (g.1 ^ g.2 * (C c * (l.map (fun g => g.1 ^ g.2)).prod)).map (Int.castRingHom ℂ) ≠ 0 :=
      (Polynomial.map_ne_zero_iff hinj).2 hne
    rw [List.map_cons, List.sum_cons, ← ih h2, invRoots, Polynomial.map_mul, roots_mul (by
      rw [← Polynomial.map_mul]; exact hne'), Multiset.filter_add, Multiset.card_add, Polynomial.map_pow, roots_pow]
    congr 1
    rw [Multiset.filter_nsmul, Multiset.card_nsmul]
    rfl

/-! ### Reversal -/

theorem getD_big {cp : List Int} {i : ℕ} (h : cp.length ≤ i) : cp.getD i 0 = 0 := by
  rw [List.getD_eq_getElem?_getD, List.getElem?_eq_none h]
  rfl

theorem polyOf_coeff (cp : List Int) (i : ℕ) : (polyOf cp).coeff i = cp.getD i 0 := by
  rw [polyOf, finset_sum_coeff]
  simp only [coeff_C_mul, coeff_X_pow]
  by_cases h : i < cp.length
  · rw [Finset.sum_eq_single i]
    · simp
    · intro b _ hb; rw [if_neg (Ne.symm hb), mul_zero]
    · intro h'; exact absurd (Finset.mem_range.2 h) h'
  · rw [Finset.sum_eq_zero, getD_big (by omega)]
    intro b hb
    rw [if_neg, mul_zero]
    have := Finset.mem_range.1 hb
    omega

theorem reversedPoly_coeff (cp : List Int) (i : ℕ) :
    (reversedPoly cp).coeff i = if i < cp.length then cp.getD (cp.length - 1 - i) 0 else 0 := by
  rw [reversedPoly, finset_sum_coeff]
  simp only [coeff_C_mul, coeff_X_pow]
  by_cases h : i < cp.length
  · rw [Finset.sum_eq_single i, if_pos h]
    · simp
    · intro b _ hb; rw [if_neg (Ne.symm hb), mul_zero]
    · intro h'; exact absurd (Finset.mem_range.2 h) h'
  · rw [Finset.sum_eq_zero, if_neg h]
    intro b hb
    rw [if_neg, mul_zero]
    have := Finset.mem_range.1 hb
    omega

theorem polyOf_natDegree {cp : List Int} (hlast : cp.getD (cp.length - 1) 0 ≠ 0) : (polyOf cp).natDegree = cp.length - 1 := by
  apply le_antisymm
  · rw [natDegree_le_iff_coeff_eq_zero]
    intro i hi
    rw [polyOf_coeff, getD_big (by omega)]
  · apply le_natDegree_of_ne_zero
    rw [polyOf_coeff]; exact hlast

theorem reversedPoly_eq {cp : List Int} (hlast : cp.getD (cp.length - 1) 0 ≠ 0) : reversedPoly cp = (polyOf cp).reverse := by
  have hlen : 0 < cp.length := by
    rcases cp with _ | ⟨a, cp⟩
    · exact absurd rfl hlast
    · simp
  ext i
  rw [reversedPoly_coeff, coeff_reverse, polyOf_natDegree hlast, polyOf_coeff]
  by_cases h : i ≤ cp.length - 1
  · rw [if_pos (by omega), revAt_le h]
  · rw [if_neg (by omega), revAt_eq_self_of_lt (by omega), getD_big (by omega)]

theorem reverse_X_sub (a : ℂ) : (X - C a).reverse = 1 - C a * X := by
  ext i
  rw [coeff_reverse, natDegree_X_sub_C]
  rcases i with _ | _ | i
  · rw [revAt_le (by norm_num)]; simp
  · rw [revAt_le (by norm_num)]; simp [coeff_one]
  · rw [revAt_eq_self_of_lt (by omega)]
    simp [coeff_X, coeff_one, coeff_C]

theorem roots_one_sub (a : ℂ) : (1 - C a * X : ℂ[X]).roots = if a = 0 then 0 else {a⁻¹} := by
  split
  · next h => rw [h]; simp
  · next h =>
    have e : (1 - C a * X : ℂ[X]) = C (-a) * (X - C a⁻¹) := by
      rw [mul_sub, ← C_mul, neg_mul, mul_inv_cancel₀ h, C_neg, C_neg, C_1]
      ring
    rw [e, roots_C_mul _ (neg_ne_zero.2 h), roots_X_sub_C]

theorem roots_reverse_prod (s : Multiset ℂ) :
    ((s.map (fun a => X - C a)).prod.reverse).roots = (s.filter (· ≠ 0)).map (·⁻¹) := by
  classical
  induction s using Multiset.induction_on with
  | empty => simp [show (1 : ℂ[X]).reverse = 1 from by rw [← C_1, reverse_C]]
  | cons a s ih =>
    rw [Multiset.map_cons, Multiset.prod_cons, reverse_mul_of_domain, roots_mul, ih, reverse_X_sub, roots_one_sub,
      Multiset.filter_cons]
    · split
      · next h => simp [h]
      · next h => simp [h]
    · rw [← reverse_mul_of_domain, Ne, reverse_eq_zero]
      apply mul_ne_zero (X_sub_C_ne_zero a)
      apply Multiset.prod_ne_zero
      intro h
      obtain ⟨b, -, hb⟩ := Multiset.mem_map.1 h
      exact X_sub_C_ne_zero b hb

theorem roots_reverse (P : ℂ[X]) : P.reverse.roots = (P.roots.filter (· ≠ 0)).map (·⁻¹) := by
  by_cases h0 : P = 0
  · rw [h0]; simp
  · have h := (IsAlgClosed.splits P).eq_prod_roots
    have h1 : P.reverse = C P.leadingCoeff * ((P.roots.map (fun a => X - C a)).prod).reverse := by
      conv_lhs => rw [h]
      rw [reverse_mul_of_domain, reverse_C]
    rw [h1, roots_C_mul _ (leadingCoeff_ne_zero.2 h0), roots_reverse_prod]

theorem map_reverse (P : ℤ[X]) : P.reverse.map (Int.castRingHom ℂ) = (P.map (Int.castRingHom ℂ)).reverse := by
  ext i
  rw [coeff_map, coeff_reverse, coeff_reverse, natDegree_map_eq_of_injective (Int.castRingHom ℂ).injective_int, coeff_map]

theorem isRootOfUnity_inv {z : ℂ} : IsRootOfUnity z⁻¹ ↔ IsRootOfUnity z := by
  constructor <;> rintro ⟨m, hm, h⟩ <;> refine ⟨m, hm, ?_⟩
  · rw [inv_pow, inv_eq_one] at h; exact h
  · rw [inv_pow, inv_eq_one]; exact h

theorem invRoots_reverse {p : ℕ} (P : ℤ[X]) : invRoots p P.reverse = unitRoots P p := by
  classical
  rw [invRoots, unitRoots, map_reverse, roots_reverse, Multiset.filter_map, Multiset.card_map, Multiset.filter_filter]
  congr 1
  apply Multiset.filter_congr
  intro z _
  simp only [Function.comp]
  constructor
  · rintro ⟨h, -⟩
    rw [← isRootOfUnity_inv, inv_div, div_eq_mul_inv]
    exact h
  · intro h
    constructor
    · rw [← div_eq_mul_inv, ← inv_div, isRootOfUnity_inv]; exact h
    · rintro rfl
      obtain ⟨m, hm, h⟩ := h
      rw [zero_div, zero_pow hm.ne'] at h
      exact zero_ne_one h

end Verif
