import Verif.Spec.DeRham
import Mathlib.RingTheory.Derivation.Basic
import Mathlib.LinearAlgebra.Basis.Basic
import Mathlib.RingTheory.MvPolynomial.Basic
import Mathlib.RingTheory.MvPolynomial.EulerIdentity
import Mathlib.Tactic.Ring
import Mathlib.Tactic.LinearCombination
import Mathlib.Tactic.Module

/-!
The relation `exactForms` of `Verif/Spec/DeRham.lean`: its meaning, and a version without
denominators, in which a polynomial `G` of degree `k d - (n+1)` stands for `(k-1)! G Ω / f^k`.
-/

namespace Verif.Spec

open MvPolynomial

variable {R : Type} [CommRing R]

/-- In any algebra in which `f` is invertible and for any derivation `D`,
`m F D(f) / f^(m+1) - D(F) / f^m` is minus the derivative of `F / f^m` (`g` is `1/f`). -/
theorem griffiths_is_derivative {A : Type} [CommRing A] [Algebra R A] (D : Derivation R A A)
    (f g F : A) (hg : f * g = 1) (m : ℕ) :
    (m : A) * (F * D f) * g ^ (m + 1) - D F * g ^ m = - D (F * g ^ m) := by
  have h1 : D f * g + f * D g = 0 := by
    have := D.leibniz f g
    rw [hg, D.map_one_eq_zero] at this
    simp only [smul_eq_mul] at this
    linear_combination -this
  have h2 : D g = - (D f * g ^ 2) := by
    linear_combination g * h1 - D g * hg
  rw [D.leibniz, D.leibniz_pow]
  simp only [smul_eq_mul, nsmul_eq_mul]
  rcases m with _ | m
  · simp
  · rw [Nat.add_sub_cancel, h2]
    ring

theorem xpow_of_nonneg {n : Nat} {a : Fin (n + 1) → ℤ} (h : ∀ i, 0 ≤ a i) :
    xpow R a = monomial (Finsupp.equivFunOnFinite.symm (fun i => (a i).toNat)) 1 := by
  rw [xpow, if_pos h]

theorem xpow_of_neg {n : Nat} {a : Fin (n + 1) → ℤ} (i : Fin (n + 1)) (h : a i < 0) :
    xpow R a = 0 := by
  rw [xpow, if_neg (fun h' => absurd (h' i) (by omega))]

theorem xpow_mul {n : Nat} {a b : Fin (n + 1) → ℤ} (ha : ∀ i, 0 ≤ a i) (hb : ∀ i, 0 ≤ b i) :
    xpow R a * xpow R b = xpow R (a + b) := by
  rw [xpow_of_nonneg ha, xpow_of_nonneg hb, xpow_of_nonneg (a := a + b) (fun i => add_nonneg (ha i) (hb i)),
    monomial_mul, mul_one]
  congr 2
  ext i
  simp [Int.toNat_add (ha i) (hb i)]

theorem xpow_isHomogeneous {n : Nat} (a : Fin (n + 1) → ℤ) (e : ℕ) (h : ∑ i, a i = e) :
    (xpow R a).IsHomogeneous e := by
  by_cases h0 : ∀ i, 0 ≤ a i
  · rw [xpow_of_nonneg h0]
    apply isHomogeneous_monomial
    rw [Finsupp.degree_eq_sum]
    have : ((∑ i, (a i).toNat : ℕ) : ℤ) = e := by
      rw [← h]; push_cast
      exact Finset.sum_congr rfl (fun i _ => Int.toNat_of_nonneg (h0 i))
    exact_mod_cast this
  · rw [xpow, if_neg h0]
    exact isHomogeneous_zero _ _ _

theorem pderiv_xpow {n : Nat} {a : Fin (n + 1) → ℤ} (ha : ∀ i, 0 ≤ a i) (i : Fin (n + 1)) :
    pderiv i (xpow R a) = ((a i : ℤ) : R) • xpow R (a - Pi.single i 1) := by
  rw [xpow_of_nonneg ha, pderiv_monomial, one_mul]
  by_cases h : a i = 0
  · simp [h]
  · have h1 : ∀ j, 0 ≤ (a - Pi.single i 1 : Fin (n + 1) → ℤ) j := by
      intro j
      by_cases hj : j = i
      · subst hj; have := ha j; simp; omega
      · simp [hj, ha j]
    rw [xpow_of_nonneg h1, smul_monomial, smul_eq_mul, mul_one]
    congr 2
    · ext j
      by_cases hj : j = i
      · subst hj; simp
      · simp [hj]
    · simp only [Finsupp.equivFunOnFinite_symm_apply_apply]
      rw [← Int.cast_natCast, Int.toNat_of_nonneg (ha i)]

/-- The relations without denominators. -/
noncomputable def Ex {n : Nat} (f : MvPolynomial (Fin (n + 1)) R) (d : ℕ) :
    Submodule R (MvPolynomial (Fin (n + 1)) R) :=
  Submodule.span R {w | ∃ (m : ℕ) (i : Fin (n + 1)) (a : Fin (n + 1) → ℤ),
    1 ≤ m ∧ (∀ j, 0 ≤ a j) ∧ ∑ j, a j + n = m * d ∧
    w = xpow R a * pderiv i f - ((a i : ℤ) : R) • xpow R (a - Pi.single i 1)}

theorem Ex_mem {n : Nat} (f : MvPolynomial (Fin (n + 1)) R) (d : ℕ) (m : ℕ) (i : Fin (n + 1))
    (a : Fin (n + 1) → ℤ) (hm : 1 ≤ m) (ha : ∀ j, 0 ≤ a j) (hs : ∑ j, a j + n = m * d) :
    xpow R a * pderiv i f - ((a i : ℤ) : R) • xpow R (a - Pi.single i 1) ∈ Ex f d :=
  Submodule.subset_span ⟨m, i, a, hm, ha, hs, rfl⟩

/-- The form denoted by a polynomial: degree `k d - (n+1)` goes to `(k-1)! G Ω / f^k`. -/
noncomputable def toForms (R : Type) [CommRing R] (n d : ℕ) :
    MvPolynomial (Fin (n + 1)) R →ₗ[R] Forms R n :=
  (basisMonomials (Fin (n + 1)) R).constr R (fun a =>
    form ((a.degree + n + 1) / d) ((((a.degree + n + 1) / d - 1).factorial : R) • monomial a 1))

theorem toForms_monomial (n d : ℕ) (a : Fin (n + 1) →₀ ℕ) (c : R) :
    toForms R n d (monomial a c) =
      form ((a.degree + n + 1) / d) ((((a.degree + n + 1) / d - 1).factorial : R) • monomial a c) := by
  have h : (monomial a c : MvPolynomial (Fin (n + 1)) R) = c • basisMonomials (Fin (n + 1)) R a := by
    rw [coe_basisMonomials, smul_monomial, smul_eq_mul, mul_one]
  rw [h, map_smul, toForms, Module.Basis.constr_basis, form, form, Finsupp.smul_single,
    coe_basisMonomials, smul_comm]

theorem toForms_homogeneous {n d k e : ℕ} (hd : 0 < d) (hk : e + n + 1 = k * d)
    {G : MvPolynomial (Fin (n + 1)) R} (hG : G.IsHomogeneous e) :
    toForms R n d G = form k (((k - 1).factorial : R) • G) := by
  have h1 : ∀ a ∈ G.support, toForms R n d (monomial a (coeff a G))
      = form k (((k - 1).factorial : R) • monomial a (coeff a G)) := by
    intro a ha
    have hdeg : a.degree = e := hG.degree_eq_sum_deg_support ha |>.symm
    rw [toForms_monomial, hdeg, hk, Nat.mul_div_cancel _ hd]
  conv_lhs => rw [G.as_sum]
  rw [map_sum, Finset.sum_congr rfl h1]
  simp only [form]
  rw [← Finsupp.single_finsetSum, ← Finset.smul_sum]
  conv_rhs => rw [G.as_sum]

theorem toForms_Ex {n d : ℕ} (hd : 0 < d) (f : MvPolynomial (Fin (n + 1)) R)
    (hf : f.IsHomogeneous d) {w : MvPolynomial (Fin (n + 1)) R} (hw : w ∈ Ex f d) :
    toForms R n d w ∈ exactForms f d := by
  induction hw using Submodule.span_induction with
  | zero => simp
  | add x y _ _ hx hy => rw [map_add]; exact Submodule.add_mem _ hx hy
  | smul c x _ hx => rw [map_smul]; exact Submodule.smul_mem _ c hx
  | mem w hw =>
    obtain ⟨m, i, a, hm, ha, hs, rfl⟩ := hw
    rw [← pderiv_xpow ha]
    obtain ⟨e, he⟩ : ∃ e : ℕ, ∑ j, a j = e := ⟨(∑ j, a j).toNat, by
      rw [Int.toNat_of_nonneg (Finset.sum_nonneg (fun j _ => ha j))]⟩
    have hen : e + n = m * d := by rw [he] at hs; exact_mod_cast hs
    have hX := xpow_isHomogeneous (R := R) a e he
    by_cases h0 : e = 0
    · -- `a = 0`
      have ha0 : ∀ j, a j = 0 := by
        intro j
        have := Finset.sum_eq_zero_iff_of_nonneg (fun j _ => ha j) |>.1
          (show ∑ j, a j = 0 by rw [he, h0]; rfl)
        exact this j (Finset.mem_univ j)
      have hp : pderiv i (xpow R a) = 0 := by rw [pderiv_xpow ha, ha0]; simp
      have hh : (xpow R a * pderiv i f).IsHomogeneous (e + (d - 1)) := hX.mul hf.pderiv
      have h2 := toForms_homogeneous (R := R) (n := n) (k := m + 1) hd
        (by rw [add_mul, one_mul, ← hen]; omega) hh
      rw [hp, sub_zero, h2, Nat.add_sub_cancel]
      have h3 : form (m + 1) ((m.factorial : R) • (xpow R a * pderiv i f))
          = ((m - 1).factorial : R) • griffiths f (xpow R a) i m := by
        rw [griffiths, hp, form, form, form, Finsupp.single_zero, sub_zero, Finsupp.smul_single,
          smul_smul]
        congr 2
        obtain ⟨m', rfl⟩ : ∃ m', m = m' + 1 := ⟨m - 1, by omega⟩
        rw [Nat.add_sub_cancel, Nat.factorial_succ]; push_cast; ring
      rw [h3]
      exact Submodule.smul_mem _ _ (Submodule.subset_span ⟨m, e, i, _, hm, hen, hX, rfl⟩)
    · have hh : (xpow R a * pderiv i f).IsHomogeneous (e + (d - 1)) := hX.mul hf.pderiv
      have h2 := toForms_homogeneous (R := R) (n := n) (k := m + 1) hd
        (by rw [add_mul, one_mul, ← hen]; omega) hh
      have h4 := toForms_homogeneous (R := R) (n := n) (k := m) hd
        (by rw [← hen]; omega) (hX.pderiv (i := i))
      rw [map_sub, h2, h4, Nat.add_sub_cancel]
      have h3 : form (m + 1) ((m.factorial : R) • (xpow R a * pderiv i f))
          - form m (((m - 1).factorial : R) • pderiv i (xpow R a))
          = ((m - 1).factorial : R) • griffiths f (xpow R a) i m := by
        rw [griffiths, smul_sub, form, form, form, form, Finsupp.smul_single, Finsupp.smul_single,
          smul_smul]
        congr 3
        obtain ⟨m', rfl⟩ : ∃ m', m = m' + 1 := ⟨m - 1, by omega⟩
        rw [Nat.add_sub_cancel, Nat.factorial_succ]; push_cast; ring
      rw [h3]
      exact Submodule.smul_mem _ _ (Submodule.subset_span ⟨m, e, i, _, hm, hen, hX, rfl⟩)

end Verif.Spec
