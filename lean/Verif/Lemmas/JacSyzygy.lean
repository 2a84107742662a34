import Verif.Lemmas.Koszul
import Verif.Lemmas.DeRhamSpec
import Mathlib.RingTheory.MvPolynomial.Ideal
import Mathlib.Algebra.BigOperators.Group.Finset.Basic

/-!
If a power of every variable is in the Jacobian ideal, the syzygies of the partial derivatives are the
trivial ones, and a sum of basis forms which is exact is zero.
-/

namespace Verif

open Spec MvPolynomial

variable {R : Type} [CommRing R]

/-! ### Powers of the variables are a regular sequence -/

theorem regular_pow (R : Type) [CommRing R] (n M : ℕ) :
    Koszul.Regular (fun i => if h : i < n + 1 then (X ⟨i, h⟩ : MvPolynomial (Fin (n + 1)) R) ^ M else 0)
      (n + 1) := by
  intro t ht s hs
  have hI : ∀ t, t ≤ n + 1 → Koszul.first
      (fun i => if h : i < n + 1 then (X ⟨i, h⟩ : MvPolynomial (Fin (n + 1)) R) ^ M else 0) t
      = Ideal.span ((fun s => monomial s (1 : R)) ''
          {a | ∃ i : Fin (n + 1), i.val < t ∧ a = Finsupp.single i M}) := by
    intro t ht
    rw [Koszul.first]
    congr 1
    ext x
    constructor
    · rintro ⟨i, hi, rfl⟩
      have hi' : i < n + 1 := lt_of_lt_of_le hi ht
      refine ⟨Finsupp.single ⟨i, hi'⟩ M, ⟨⟨i, hi'⟩, hi, rfl⟩, ?_⟩
      simp only [dif_pos hi', X_pow_eq_monomial]
    · rintro ⟨a, ⟨i, hi, rfl⟩, rfl⟩
      refine ⟨i, hi, ?_⟩
      simp only [dif_pos i.isLt, X_pow_eq_monomial]
  rw [hI t (by omega), mem_ideal_span_monomial_image] at hs ⊢
  intro a ha
  simp only [dif_pos ht] at hs
  obtain ⟨_, ⟨i, hi, rfl⟩, hle⟩ := hs (Finsupp.single ⟨t, ht⟩ M + a) (by
    rw [mem_support_iff, X_pow_eq_monomial, coeff_monomial_mul, one_mul]
    exact mem_support_iff.1 ha)
  refine ⟨_, ⟨i, hi, rfl⟩, ?_⟩
  intro j
  have h1 := hle j
  by_cases hj : j = i
  · subst hj
    have : (⟨t, ht⟩ : Fin (n + 1)) ≠ j := by
      intro h; rw [← h] at hi; simp at hi
    rw [Finsupp.add_apply, Finsupp.single_eq_of_ne (Ne.symm this), zero_add] at h1
    exact h1
  · rw [Finsupp.single_eq_of_ne hj]; exact Nat.zero_le _

/-- The syzygies of `g_0, ..., g_n`. -/
theorem jac_syzygy {n M : ℕ} {g : Fin (n + 1) → MvPolynomial (Fin (n + 1)) R}
    (hM : ∀ i, X i ^ M ∈ Ideal.span (Set.range g)) (H : Fin (n + 1) → MvPolynomial (Fin (n + 1)) R)
    (h : ∑ i, g i * H i = 0) :
    ∃ A : Fin (n + 1) → Fin (n + 1) → MvPolynomial (Fin (n + 1)) R,
      (∀ i j, A i j = - A j i) ∧ (∀ i, A i i = 0) ∧ ∀ i, H i = ∑ j, A i j * g j := by
  set g' : ℕ → MvPolynomial (Fin (n + 1)) R := fun i => if h : i < n + 1 then g ⟨i, h⟩ else 0 with hg'
  set H' : ℕ → MvPolynomial (Fin (n + 1)) R := fun i => if h : i < n + 1 then H ⟨i, h⟩ else 0 with hH'
  have hset : g' '' {i | i < n + 1} = Set.range g := by
    ext x
    constructor
    · rintro ⟨i, hi, rfl⟩
      have hi' : i < n + 1 := hi
      exact ⟨⟨i, hi'⟩, by simp only [hg', dif_pos hi']⟩
    · rintro ⟨i, rfl⟩
      exact ⟨i, i.isLt, by simp only [hg', dif_pos i.isLt]⟩
  obtain ⟨A, h1, h2, h3⟩ := Koszul.syzygy (f := g') (regular_pow R n M) (by
    intro i hi
    rw [hset]
    simp only [dif_pos hi]
    exact hM _) H' (by
    rw [Finset.sum_range, ← h]
    refine Finset.sum_congr rfl (fun i _ => ?_)
    simp only [hg', hH', dif_pos i.isLt])
  refine ⟨fun i j => A i j, fun i j => h1 i j, fun i => h2 i, fun i => ?_⟩
  have := h3 i i.isLt
  rw [Finset.sum_range] at this
  simp only [hg', hH', dif_pos i.isLt] at this
  rw [this]
  exact Finset.sum_congr rfl (fun j _ => by rw [dif_pos j.isLt])

/-! ### Homogeneous components -/

theorem component_hom {σ : Type} {p : MvPolynomial σ R} {k : ℕ} (h : p.IsHomogeneous k) (e : ℕ) :
    homogeneousComponent e p = if e = k then p else 0 :=
  homogeneousComponent_of_mem h

theorem pderiv_comm {σ : Type} [DecidableEq σ] (i j : σ) (p : MvPolynomial σ R) :
    pderiv i (pderiv j p) = pderiv j (pderiv i p) := by
  have hX : ∀ i j k : σ, pderiv i (pderiv j (X k : MvPolynomial σ R)) = 0 := by
    intro i j k
    rw [pderiv_X, Pi.single_apply]
    split
    · exact pderiv_one
    · exact map_zero _
  induction p using MvPolynomial.induction_on with
  | C a => simp
  | add p q hp hq => simp only [map_add, hp, hq]
  | mul_X p k ih =>
    simp only [Derivation.leibniz, smul_eq_mul, map_add, ih, hX]
    ring

theorem component_mul {σ : Type} {A g : MvPolynomial σ R} {k : ℕ} (hg : g.IsHomogeneous k) (E : ℕ) :
    homogeneousComponent E (A * g) = if k ≤ E then homogeneousComponent (E - k) A * g else 0 := by
  conv_lhs => rw [← sum_homogeneousComponent A, Finset.sum_mul, map_sum]
  have h1 : ∀ i, homogeneousComponent E (homogeneousComponent i A * g)
      = if i + k = E then homogeneousComponent i A * g else 0 := by
    intro i
    rw [component_hom ((homogeneousComponent_isHomogeneous i A).mul hg)]
    by_cases h : i + k = E
    · rw [if_pos h, if_pos h.symm]
    · rw [if_neg h, if_neg (Ne.symm h)]
  simp only [h1]
  split
  · rename_i hk
    rw [Finset.sum_eq_single (E - k)]
    · rw [if_pos (by omega)]
    · intro i _ hi
      rw [if_neg (by omega)]
    · intro hi
      rw [homogeneousComponent_eq_zero (E - k) A (by have := Finset.mem_range.not.1 hi; omega)]
      simp
  · exact Finset.sum_eq_zero (fun i _ => if_neg (by omega))

theorem component_pderiv {σ : Type} (i : σ) (F : MvPolynomial σ R) (e : ℕ) :
    homogeneousComponent e (pderiv i F) = pderiv i (homogeneousComponent (e + 1) F) := by
  classical
  induction F using MvPolynomial.induction_on' with
  | monomial a c =>
    have hm : (monomial a c).IsHomogeneous a.degree := isHomogeneous_monomial c rfl
    rw [component_hom hm]
    by_cases h0 : a i = 0
    · have : pderiv i (monomial a c) = 0 := by rw [pderiv_monomial, h0]; simp
      rw [this, map_zero]
      split
      · exact this.symm
      · rw [map_zero]
    · have hp : (pderiv i (monomial a c)).IsHomogeneous (a.degree - 1) := hm.pderiv
      have hpos : 0 < a.degree := by
        rw [Nat.pos_iff_ne_zero, Ne, Finsupp.degree_eq_zero_iff]
        intro h; rw [h] at h0; exact h0 rfl
      rw [component_hom hp]
      by_cases he : e + 1 = a.degree
      · rw [if_pos he, if_pos (by omega)]
      · rw [if_neg he, if_neg (by omega), map_zero]
  | add p q hp hq => rw [map_add, map_add, hp, hq, map_add, map_add]

theorem eq_zero_of_components {σ : Type} {F : MvPolynomial σ R}
    (h : ∀ e, homogeneousComponent e F = 0) : F = 0 := by
  rw [← sum_homogeneousComponent F]
  exact Finset.sum_eq_zero (fun e _ => h e)

theorem sum_antisymm {ι M : Type} [Fintype ι] [DecidableEq ι] [AddCommGroup M] (s : ι → ι → M)
    (h1 : ∀ i j, s i j = - s j i) (h2 : ∀ i, s i i = 0) : ∑ i, ∑ j, s i j = 0 := by
  rw [← Finset.sum_product']
  refine Finset.sum_involution (fun a _ => (a.2, a.1)) ?_ ?_ ?_ ?_
  · intro a _
    rw [h1 a.1 a.2, neg_add_cancel]
  · rintro ⟨i, j⟩ _ hne heq
    simp only [Prod.mk.injEq] at heq
    rw [heq.1] at hne
    exact hne (h2 _)
  · intro a _; simp
  · intro a _; rfl

/-! ### Exact sums of basis forms -/

/-- The sum of the relations for `F_0, ..., F_n`. -/
noncomputable def relSum {n : ℕ} (f : MvPolynomial (Fin (n + 1)) R)
    (F : Fin (n + 1) → MvPolynomial (Fin (n + 1)) R) : MvPolynomial (Fin (n + 1)) R :=
  ∑ i, (pderiv i f * F i - pderiv i (F i))

theorem relSum_add {n : ℕ} (f : MvPolynomial (Fin (n + 1)) R)
    (F F' : Fin (n + 1) → MvPolynomial (Fin (n + 1)) R) :
    relSum f (fun i => F i + F' i) = relSum f F + relSum f F' := by
  rw [relSum, relSum, relSum, ← Finset.sum_add_distrib]
  refine Finset.sum_congr rfl (fun i _ => ?_)
  rw [map_add]; ring

theorem relSum_sub {n : ℕ} (f : MvPolynomial (Fin (n + 1)) R)
    (F F' : Fin (n + 1) → MvPolynomial (Fin (n + 1)) R) :
    relSum f (fun i => F i - F' i) = relSum f F - relSum f F' := by
  rw [relSum, relSum, relSum, ← Finset.sum_sub_distrib]
  refine Finset.sum_congr rfl (fun i _ => ?_)
  rw [map_sub]; ring

theorem Ex_relSum {n d : ℕ} {f w : MvPolynomial (Fin (n + 1)) R} (h : w ∈ Ex f d) :
    ∃ F, w = relSum f F := by
  induction h using Submodule.span_induction with
  | zero => exact ⟨fun _ => 0, by simp [relSum]⟩
  | add x y _ _ hx hy =>
    obtain ⟨F, rfl⟩ := hx
    obtain ⟨F', rfl⟩ := hy
    exact ⟨_, (relSum_add f F F').symm⟩
  | smul c x _ hx =>
    obtain ⟨F, rfl⟩ := hx
    refine ⟨fun i => c • F i, ?_⟩
    rw [relSum, relSum, Finset.smul_sum]
    refine Finset.sum_congr rfl (fun i _ => ?_)
    rw [Derivation.map_smul, smul_sub, mul_smul_comm]
  | mem w hw =>
    obtain ⟨m, i, a, hm, ha, hs, rfl⟩ := hw
    refine ⟨fun j => if j = i then xpow R a else 0, ?_⟩
    rw [relSum, Finset.sum_eq_single i]
    · rw [if_pos rfl, pderiv_xpow ha, mul_comm]
    · intro j _ hj
      rw [if_neg hj, mul_zero, map_zero, sub_zero]
    · intro h; exact absurd (Finset.mem_univ i) h

/-- An antisymmetric family gives no relation in the top degree. -/
theorem relSum_antisymm {n : ℕ} (f : MvPolynomial (Fin (n + 1)) R)
    (A : Fin (n + 1) → Fin (n + 1) → MvPolynomial (Fin (n + 1)) R) (h1 : ∀ i j, A i j = - A j i)
    (h2 : ∀ i, A i i = 0) :
    relSum f (fun i => ∑ j, A i j * pderiv j f) = relSum f (fun i => ∑ j, pderiv j (A i j)) := by
  rw [← sub_eq_zero, ← relSum_sub]
  have e : relSum f (fun i => ∑ j, A i j * pderiv j f - ∑ j, pderiv j (A i j))
      = ∑ i, ∑ j, (pderiv i f * (A i j * pderiv j f - pderiv j (A i j))
          - pderiv i (A i j * pderiv j f - pderiv j (A i j))) := by
    rw [relSum]
    refine Finset.sum_congr rfl (fun i _ => ?_)
    rw [← Finset.sum_sub_distrib, Finset.mul_sum, map_sum, ← Finset.sum_sub_distrib]
  rw [e]
  apply sum_antisymm
  · intro i j
    rw [h1 i j]
    simp only [map_sub, map_neg, Derivation.leibniz, smul_eq_mul, neg_mul]
    rw [pderiv_comm i j f, pderiv_comm i j (A j i)]
    ring
  · intro i
    rw [h2 i]; simp

/-- Let `f` be homogeneous of degree `d`, a power of every variable in the Jacobian ideal.  Let `P` be a
property of polynomials passing to homogeneous components, such that no homogeneous polynomial other
than 0 with property `P` is in the Jacobian ideal.  Then 0 is the only polynomial with property `P`
which is a sum of relations. -/
theorem exact_eq_zero {n d M : ℕ} {f : MvPolynomial (Fin (n + 1)) R} (hf : f.IsHomogeneous d) (hd : 0 < d)
    (hM : ∀ i, X i ^ M ∈ Ideal.span (Set.range (fun i => pderiv i f)))
    (P : MvPolynomial (Fin (n + 1)) R → Prop) (hP : ∀ w, P w → ∀ e, P (homogeneousComponent e w))
    (hind : ∀ e w, P w → w.IsHomogeneous e → w ∈ Ideal.span (Set.range (fun i => pderiv i f)) → w = 0)
    (E : ℕ) : ∀ F : Fin (n + 1) → MvPolynomial (Fin (n + 1)) R,
      (∀ i e, E ≤ e → homogeneousComponent e (F i) = 0) → P (relSum f F) → relSum f F = 0 := by
  have hfi : ∀ i, (pderiv i f).IsHomogeneous (d - 1) := fun i => hf.pderiv
  induction E with
  | zero =>
    intro F hF _
    have : F = fun _ => 0 := funext (fun i => eq_zero_of_components (fun e => hF i e (Nat.zero_le _)))
    rw [this]; simp [relSum]
  | succ E ih =>
    intro F hF hw
    have htop : homogeneousComponent (E + (d - 1)) (relSum f F)
        = ∑ i, pderiv i f * homogeneousComponent E (F i) := by
      rw [relSum, map_sum]
      refine Finset.sum_congr rfl (fun i _ => ?_)
      rw [map_sub, component_pderiv, hF i _ (by omega), map_zero, sub_zero, mul_comm,
        component_mul (hfi i), if_pos (by omega), Nat.add_sub_cancel, mul_comm]
    have hzero : ∑ i, pderiv i f * homogeneousComponent E (F i) = 0 := by
      rw [← htop]
      apply hind (E + (d - 1)) _ (hP _ hw _) (homogeneousComponent_isHomogeneous _ _)
      rw [htop]
      refine Ideal.sum_mem _ (fun i _ => Ideal.mul_mem_right _ _ (Ideal.subset_span ⟨i, rfl⟩))
    obtain ⟨A, h1, h2, h3⟩ := jac_syzygy hM _ hzero
    obtain ⟨A', hA'⟩ : ∃ A' : Fin (n + 1) → Fin (n + 1) → MvPolynomial (Fin (n + 1)) R,
      A' = fun i j => if d - 1 ≤ E then homogeneousComponent (E - (d - 1)) (A i j) else 0 := ⟨_, rfl⟩
    have h1' : ∀ i j, A' i j = - A' j i := by
      intro i j
      rw [hA']
      beta_reduce
      split
      · rw [h1 i j, map_neg]
      · rw [neg_zero]
    have h2' : ∀ i, A' i i = 0 := by
      intro i
      rw [hA']
      beta_reduce
      split
      · rw [h2, map_zero]
      · rfl
    have h3' : ∀ i, homogeneousComponent E (F i) = ∑ j, A' i j * pderiv j f := by
      intro i
      have hh := component_hom (homogeneousComponent_isHomogeneous E (F i)) E
      rw [if_pos rfl] at hh
      rw [← hh, h3 i, map_sum]
      refine Finset.sum_congr rfl (fun j _ => ?_)
      rw [component_mul (hfi j), hA']
      beta_reduce
      split
      · rfl
      · rw [zero_mul]
    have hrel : relSum f F = relSum f
        (fun i => (F i - homogeneousComponent E (F i)) + ∑ j, pderiv j (A' i j)) := by
      rw [relSum_add, relSum_sub, ← relSum_antisymm f A' h1' h2']
      have : (fun i => homogeneousComponent E (F i)) = fun i => ∑ j, A' i j * pderiv j f := funext h3'
      rw [this, sub_add_cancel]
    rw [hrel] at hw ⊢
    refine ih _ ?_ hw
    intro i e he
    rw [map_add, map_sub, map_sum]
    have e1 : homogeneousComponent e (F i)
        - homogeneousComponent e (homogeneousComponent E (F i)) = 0 := by
      rw [component_hom (homogeneousComponent_isHomogeneous E (F i))]
      by_cases hE : e = E
      · rw [if_pos hE, hE, sub_self]
      · rw [if_neg hE, hF i e (by omega), sub_zero]
    have e2 : ∀ j, homogeneousComponent e (pderiv j (A' i j)) = 0 := by
      intro j
      rw [component_pderiv, hA']
      beta_reduce
      split
      · rw [component_hom (homogeneousComponent_isHomogeneous _ (A i j)),
          if_neg (by omega), map_zero]
      · rw [map_zero, map_zero]
    rw [e1, zero_add]
    exact Finset.sum_eq_zero (fun j _ => e2 j)

theorem Ex_eq_zero {n d M : ℕ} {f : MvPolynomial (Fin (n + 1)) R} (hf : f.IsHomogeneous d) (hd : 0 < d)
    (hM : ∀ i, X i ^ M ∈ Ideal.span (Set.range (fun i => pderiv i f)))
    (P : MvPolynomial (Fin (n + 1)) R → Prop) (hP : ∀ w, P w → ∀ e, P (homogeneousComponent e w))
    (hind : ∀ e w, P w → w.IsHomogeneous e → w ∈ Ideal.span (Set.range (fun i => pderiv i f)) → w = 0)
    {w : MvPolynomial (Fin (n + 1)) R} (hw : P w) (hE : w ∈ Ex f d) : w = 0 := by
  obtain ⟨F, rfl⟩ := Ex_relSum hE
  refine exact_eq_zero hf hd hM P hP hind (Finset.univ.sup (fun i => (F i).totalDegree) + 1) F ?_ hw
  intro i e he
  apply homogeneousComponent_eq_zero
  have : (F i).totalDegree ≤ Finset.univ.sup (fun i => (F i).totalDegree) :=
    Finset.le_sup (f := fun i => (F i).totalDegree) (Finset.mem_univ i)
  omega

end Verif
