import Mathlib.RingTheory.MvPolynomial.Homogeneous
import Mathlib.LinearAlgebra.Dimension.Finrank
import Mathlib.LinearAlgebra.FiniteDimensional.Lemmas
import Mathlib.RingTheory.PowerSeries.WellKnown
import Verif.Lemmas.JacSyzygy
import Verif.Lemmas.DeRhamInit

/-!
Complete intersections.  Let `g_0, ..., g_n` be forms of the same degree in `n+1` variables whose ideal contains a
power of every variable.  Then they are a regular sequence, and the dimension of the quotient in degree `t` is the
coefficient of `x^t` in `(1 + x + ... + x^(e-1))^(n+1)`.
-/

namespace Verif

open Spec MvPolynomial

/-! ### Syzygies of the first `k` forms -/

section

variable {F : Type} [Field F] {n e : ℕ}

/-- Every syzygy of degree `t` of the first `k` forms is a combination of the trivial ones. -/
def TrivSyz (g : Fin (n + 1) → MvPolynomial (Fin (n + 1)) F) (e k t : ℕ) : Prop :=
  ∀ H : Fin (n + 1) → MvPolynomial (Fin (n + 1)) F, (∀ i, (H i).IsHomogeneous t) →
    (∀ i : Fin (n + 1), k ≤ i.val → H i = 0) → ∑ i, g i * H i = 0 →
    ∃ A : Fin (n + 1) → Fin (n + 1) → MvPolynomial (Fin (n + 1)) F,
      (∀ i j, A i j = - A j i) ∧ (∀ i, A i i = 0) ∧ (∀ i j : Fin (n + 1), k ≤ i.val → A i j = 0) ∧
      (∀ i j, (A i j).IsHomogeneous (t - e)) ∧ (t < e → ∀ i j, A i j = 0) ∧ ∀ i, H i = ∑ j, A i j * g j

/-- The entries can be taken homogeneous. -/
theorem trivSyz_homog {g : Fin (n + 1) → MvPolynomial (Fin (n + 1)) F} (hg : ∀ i, (g i).IsHomogeneous e) {k t : ℕ}
    {H : Fin (n + 1) → MvPolynomial (Fin (n + 1)) F} (hH : ∀ i, (H i).IsHomogeneous t)
    {A : Fin (n + 1) → Fin (n + 1) → MvPolynomial (Fin (n + 1)) F} (h1 : ∀ i j, A i j = - A j i)
    (h2 : ∀ i, A i i = 0) (h3 : ∀ i j : Fin (n + 1), k ≤ i.val → A i j = 0) (h4 : ∀ i, H i = ∑ j, A i j * g j) :
    ∃ A : Fin (n + 1) → Fin (n + 1) → MvPolynomial (Fin (n + 1)) F,
      (∀ i j, A i j = - A j i) ∧ (∀ i, A i i = 0) ∧ (∀ i j : Fin (n + 1), k ≤ i.val → A i j = 0) ∧
      (∀ i j, (A i j).IsHomogeneous (t - e)) ∧ (t < e → ∀ i j, A i j = 0) ∧ ∀ i, H i = ∑ j, A i j * g j := by
  refine ⟨fun i j => if e ≤ t then homogeneousComponent (t - e) (A i j) else 0, ?_, ?_, ?_, ?_, ?_, ?_⟩
  · intro i j
    beta_reduce
    split
    · rw [h1 i j, map_neg]
    · rw [neg_zero]
  · intro i
    beta_reduce
    split
    · rw [h2, map_zero]
    · rfl
  · intro i j hi
    beta_reduce
    rw [h3 i j hi, map_zero, ite_self]
  · intro i j
    beta_reduce
    split
    · exact homogeneousComponent_isHomogeneous _ _
    · exact isHomogeneous_zero _ _ _
  · intro ht i j
    exact if_neg (by omega)
  · intro i
    have := component_hom (hH i) t
    rw [if_pos rfl] at this
    rw [← this, h4 i, map_sum]
    refine Finset.sum_congr rfl (fun j _ => ?_)
    rw [component_mul (hg j)]
    beta_reduce
    split
    · rfl
    · rw [zero_mul]

theorem trivSyz_full {M : ℕ} {g : Fin (n + 1) → MvPolynomial (Fin (n + 1)) F} (hg : ∀ i, (g i).IsHomogeneous e)
    (hM : ∀ i, X i ^ M ∈ Ideal.span (Set.range g)) (t : ℕ) : TrivSyz g e (n + 1) t := by
  intro H hH _ h0
  obtain ⟨A, h1, h2, h3⟩ := jac_syzygy hM H h0
  exact trivSyz_homog hg hH h1 h2 (fun i _ hi => absurd i.isLt (by omega)) h3

theorem trivSyz_down {g : Fin (n + 1) → MvPolynomial (Fin (n + 1)) F} (hg : ∀ i, (g i).IsHomogeneous e) (he : 1 ≤ e)
    {k : ℕ} (hk : k < n + 1) (h : ∀ t, TrivSyz g e (k + 1) t) : ∀ t, TrivSyz g e k t := by
  intro t
  induction t using Nat.strong_induction_on with
  | _ t ih =>
    intro H hH hsup h0
    obtain ⟨A, h1, h2, h3, h4, h5, h6⟩ := h t H hH (fun i hi => hsup i (by omega)) h0
    by_cases ht : t < e
    · refine ⟨fun _ _ => 0, fun _ _ => neg_zero.symm, fun _ => rfl, fun _ _ _ => rfl,
        fun _ _ => isHomogeneous_zero _ _ _, fun _ _ _ => rfl, fun i => ?_⟩
      rw [h6 i]
      exact Finset.sum_congr rfl (fun j _ => by rw [h5 ht])
    obtain ⟨κ, hκ⟩ : ∃ κ : Fin (n + 1), κ.val = k := ⟨⟨k, hk⟩, rfl⟩
    have hc0 : ∀ j : Fin (n + 1), k ≤ j.val → A κ j = 0 := by
      intro j hj
      by_cases hjk : j = κ
      · rw [hjk, h2]
      · have : k + 1 ≤ j.val := by
          have : j.val ≠ k := fun h => hjk (Fin.ext (h.trans hκ.symm))
          omega
        rw [h1, h3 j κ this, neg_zero]
    have hcs : ∑ j, g j * A κ j = 0 := by
      have := h6 κ
      rw [hsup κ (by omega)] at this
      rw [this]
      exact Finset.sum_congr rfl (fun j _ => mul_comm _ _)
    obtain ⟨B, b1, b2, b3, -, -, b6⟩ := ih (t - e) (by omega) (fun j => A κ j) (h4 κ) hc0 hcs
    have b3' : ∀ i j : Fin (n + 1), k ≤ j.val → B i j = 0 := fun i j hj => by rw [b1, b3 j i hj, neg_zero]
    refine trivSyz_homog hg hH (A := fun i j => if i.val < k ∧ j.val < k then A i j - g κ * B i j else 0) ?_ ?_ ?_ ?_
    · intro i j
      beta_reduce
      by_cases hij : i.val < k ∧ j.val < k
      · rw [if_pos hij, if_pos hij.symm, h1 i j, b1 i j]; ring
      · rw [if_neg hij, if_neg (fun h => hij h.symm), neg_zero]
    · intro i
      beta_reduce
      split
      · rw [h2, b2]; ring
      · rfl
    · intro i j hi
      exact if_neg (by omega)
    · intro i
      by_cases hi : i.val < k
      · have e1 : ∀ j, (if i.val < k ∧ j.val < k then A i j - g κ * B i j else 0) * g j
            = (if j = κ then 0 else A i j * g j) - g κ * (B i j * g j) := by
          intro j
          by_cases hj : j.val < k
          · rw [if_pos ⟨hi, hj⟩, if_neg (by rintro rfl; omega)]; ring
          · rw [if_neg (fun h => hj h.2), b3' i j (by omega)]
            by_cases hjk : j = κ
            · rw [if_pos hjk]; ring
            · have : k + 1 ≤ j.val := by
                have : j.val ≠ k := fun h => hjk (Fin.ext (h.trans hκ.symm))
                omega
              rw [if_neg hjk, h1, h3 j i this]; ring
        simp only [e1]
        rw [Finset.sum_sub_distrib, ← Finset.mul_sum, ← b6 i, h6 i]
        have e2 : ∑ j, A i j * g j = A i κ * g κ + ∑ j, (if j = κ then 0 else A i j * g j) := by
          have : ∀ j, A i j * g j = (if j = κ then A i κ * g κ else 0) + (if j = κ then 0 else A i j * g j) := by
            intro j
            by_cases hj : j = κ
            · rw [if_pos hj, if_pos hj, hj, add_zero]
            · rw [if_neg hj, if_neg hj, zero_add]
          conv_lhs => rw [Finset.sum_congr rfl (fun j _ => this j)]
          rw [Finset.sum_add_distrib, Finset.sum_ite_eq' Finset.univ κ, if_pos (Finset.mem_univ _)]
        rw [e2, h1 i κ]; ring
      · rw [hsup i (by omega)]
        symm
        refine Finset.sum_eq_zero (fun j _ => ?_)
        rw [if_neg (fun h => hi h.1), zero_mul]

theorem trivSyz_all {M : ℕ} {g : Fin (n + 1) → MvPolynomial (Fin (n + 1)) F} (hg : ∀ i, (g i).IsHomogeneous e)
    (he : 1 ≤ e) (hM : ∀ i, X i ^ M ∈ Ideal.span (Set.range g)) {k : ℕ} (hk : k ≤ n + 1) (t : ℕ) : TrivSyz g e k t := by
  obtain ⟨j, rfl⟩ : ∃ j, k = n + 1 - j := ⟨n + 1 - k, by omega⟩
  induction j generalizing t with
  | zero => exact trivSyz_full hg hM t
  | succ j ih =>
    by_cases hj : n + 1 ≤ j
    · have e : n + 1 - (j + 1) = n + 1 - j := by omega
      rw [e]; exact ih t (by omega)
    · have e1 : n + 1 - j = n + 1 - (j + 1) + 1 := by omega
      rw [e1] at ih
      exact trivSyz_down hg he (by omega) (fun t => ih t (by omega)) t

/-! ### The forms are a regular sequence -/

/-- The ideal of the first `k` forms. -/
noncomputable def firstIdeal (g : Fin (n + 1) → MvPolynomial (Fin (n + 1)) F) (k : ℕ) : Ideal (MvPolynomial (Fin (n + 1)) F) :=
  Ideal.span (g '' {i | i.val < k})

theorem mem_firstIdeal {g : Fin (n + 1) → MvPolynomial (Fin (n + 1)) F} {k : ℕ} {w : MvPolynomial (Fin (n + 1)) F} :
    w ∈ firstIdeal g k ↔ ∃ a : Fin (n + 1) → MvPolynomial (Fin (n + 1)) F,
      (∀ i : Fin (n + 1), k ≤ i.val → a i = 0) ∧ w = ∑ i, a i * g i := by
  constructor
  · intro h
    rw [firstIdeal] at h
    induction h using Submodule.span_induction with
    | zero => exact ⟨fun _ => 0, fun _ _ => rfl, by simp⟩
    | add x y _ _ hx hy =>
      obtain ⟨a, ha, rfl⟩ := hx
      obtain ⟨b, hb, rfl⟩ := hy
      refine ⟨fun i => a i + b i, fun i hi => by beta_reduce; rw [ha i hi, hb i hi, add_zero], ?_⟩
      rw [← Finset.sum_add_distrib]
      exact Finset.sum_congr rfl (fun i _ => by ring)
    | smul c x _ hx =>
      obtain ⟨a, ha, rfl⟩ := hx
      refine ⟨fun i => c * a i, fun i hi => by beta_reduce; rw [ha i hi, mul_zero], ?_⟩
      rw [smul_eq_mul, Finset.mul_sum]
      exact Finset.sum_congr rfl (fun i _ => by ring)
    | mem x hx =>
      obtain ⟨i, hi, rfl⟩ := hx
      have hi : i.val < k := hi
      refine ⟨fun j => if j = i then 1 else 0, fun j hj => if_neg (by rintro rfl; omega), ?_⟩
      simp
  · rintro ⟨a, ha, rfl⟩
    refine Ideal.sum_mem _ (fun i _ => ?_)
    by_cases hi : i.val < k
    · exact Ideal.mul_mem_left _ _ (Ideal.subset_span ⟨i, hi, rfl⟩)
    · rw [ha i (by omega), zero_mul]; exact Submodule.zero_mem _

/-- An element of degree `t` of the ideal has coefficients of degree `t - e`. -/
theorem mem_firstIdeal_homog {g : Fin (n + 1) → MvPolynomial (Fin (n + 1)) F} (hg : ∀ i, (g i).IsHomogeneous e)
    {k t : ℕ} {w : MvPolynomial (Fin (n + 1)) F} (hw : w.IsHomogeneous t) (h : w ∈ firstIdeal g k) :
    ∃ a : Fin (n + 1) → MvPolynomial (Fin (n + 1)) F, (∀ i : Fin (n + 1), k ≤ i.val → a i = 0) ∧
      (∀ i, (a i).IsHomogeneous (t - e)) ∧ (t < e → ∀ i, a i = 0) ∧ w = ∑ i, a i * g i := by
  obtain ⟨a, ha, hs⟩ := mem_firstIdeal.1 h
  refine ⟨fun i => if e ≤ t then homogeneousComponent (t - e) (a i) else 0, ?_, ?_, ?_, ?_⟩
  · intro i hi
    beta_reduce
    rw [ha i hi, map_zero, ite_self]
  · intro i
    beta_reduce
    split
    · exact homogeneousComponent_isHomogeneous _ _
    · exact isHomogeneous_zero _ _ _
  · intro ht i
    exact if_neg (by omega)
  · have := component_hom hw t
    rw [if_pos rfl] at this
    rw [← this, hs, map_sum]
    refine Finset.sum_congr rfl (fun j _ => ?_)
    rw [component_mul (hg j)]
    beta_reduce
    split
    · rfl
    · rw [zero_mul]

theorem regular_first {g : Fin (n + 1) → MvPolynomial (Fin (n + 1)) F} (hg : ∀ i, (g i).IsHomogeneous e)
    (h : ∀ k, k ≤ n + 1 → ∀ t, TrivSyz g e k t) (κ : Fin (n + 1)) {t : ℕ} {s : MvPolynomial (Fin (n + 1)) F}
    (hs : s.IsHomogeneous t) (hmem : s * g κ ∈ firstIdeal g κ.val) : s ∈ firstIdeal g κ.val := by
  obtain ⟨a, ha, hah, -, hsum⟩ := mem_firstIdeal_homog hg (hs.mul (hg κ)) hmem
  rw [Nat.add_sub_cancel] at hah
  obtain ⟨A, h1, h2, h3, -, -, h6⟩ := h (κ.val + 1) (by omega) t (fun i => if i = κ then s else - a i)
    (fun i => by beta_reduce; split; exacts [hs, (hah i).neg])
    (fun i hi => by beta_reduce; rw [if_neg (by rintro rfl; omega), ha i (by omega), neg_zero]) (by
      have : ∀ i, g i * (if i = κ then s else - a i) = (if i = κ then s * g κ else 0) - a i * g i := by
        intro i
        by_cases hi : i = κ
        · rw [if_pos hi, if_pos hi, hi, ha κ (le_refl _)]; ring
        · rw [if_neg hi, if_neg hi]; ring
      simp only [this]
      rw [Finset.sum_sub_distrib, Finset.sum_ite_eq' Finset.univ κ, if_pos (Finset.mem_univ _), ← hsum, sub_self])
  have := h6 κ
  rw [if_pos rfl] at this
  refine mem_firstIdeal.2 ⟨fun j => A κ j, fun j hj => ?_, this⟩
  beta_reduce
  by_cases hjk : j = κ
  · rw [hjk, h2]
  · have : κ.val + 1 ≤ j.val := by
      have : j.val ≠ κ.val := fun h => hjk (Fin.ext h)
      omega
    rw [h1, h3 j κ this, neg_zero]

/-! ### Dimensions -/

/-- The elements of degree `t` of the ideal of the first `k` forms. -/
noncomputable def idealDeg (g : Fin (n + 1) → MvPolynomial (Fin (n + 1)) F) (k t : ℕ) :
    Submodule F (MvPolynomial (Fin (n + 1)) F) :=
  (firstIdeal g k).restrictScalars F ⊓ homogeneousSubmodule (Fin (n + 1)) F t

theorem mem_idealDeg {g : Fin (n + 1) → MvPolynomial (Fin (n + 1)) F} {k t : ℕ} {w : MvPolynomial (Fin (n + 1)) F} :
    w ∈ idealDeg g k t ↔ w ∈ firstIdeal g k ∧ w.IsHomogeneous t := by
  rw [idealDeg, Submodule.mem_inf, Submodule.restrictScalars_mem, mem_homogeneousSubmodule]

instance homogeneous_finite (t : ℕ) : Module.Finite F (homogeneousSubmodule (Fin (n + 1)) F t) :=
  Module.Finite.iff_fg.2 (homogeneousSubmodule_fg _ _ t)

theorem idealDeg_le (g : Fin (n + 1) → MvPolynomial (Fin (n + 1)) F) (k t : ℕ) :
    idealDeg g k t ≤ homogeneousSubmodule (Fin (n + 1)) F t := inf_le_right

instance idealDeg_finite (g : Fin (n + 1) → MvPolynomial (Fin (n + 1)) F) (k t : ℕ) :
    Module.Finite F (idealDeg g k t) :=
  Submodule.finiteDimensional_of_le (idealDeg_le g k t)

theorem idealDeg_zero (g : Fin (n + 1) → MvPolynomial (Fin (n + 1)) F) (t : ℕ) : idealDeg g 0 t = ⊥ := by
  rw [eq_bot_iff]
  intro w hw
  obtain ⟨a, ha, rfl⟩ := mem_firstIdeal.1 (mem_idealDeg.1 hw).1
  rw [Submodule.mem_bot]
  exact Finset.sum_eq_zero (fun i _ => by rw [ha i (Nat.zero_le _), zero_mul])

theorem idealDeg_small {g : Fin (n + 1) → MvPolynomial (Fin (n + 1)) F} (hg : ∀ i, (g i).IsHomogeneous e) {k t : ℕ}
    (ht : t < e) : idealDeg g k t = ⊥ := by
  rw [eq_bot_iff]
  intro w hw
  obtain ⟨a, -, -, ha, rfl⟩ := mem_firstIdeal_homog hg (mem_idealDeg.1 hw).2 (mem_idealDeg.1 hw).1
  rw [Submodule.mem_bot]
  exact Finset.sum_eq_zero (fun i _ => by rw [ha ht, zero_mul])

/-- Multiplication by the `k`-th form. -/
noncomputable def mulForm (g : Fin (n + 1) → MvPolynomial (Fin (n + 1)) F) (κ : Fin (n + 1)) :
    MvPolynomial (Fin (n + 1)) F →ₗ[F] MvPolynomial (Fin (n + 1)) F := LinearMap.mulRight F (g κ)

theorem idealDeg_succ {g : Fin (n + 1) → MvPolynomial (Fin (n + 1)) F} (hg : ∀ i, (g i).IsHomogeneous e)
    (κ : Fin (n + 1)) {t : ℕ} (ht : e ≤ t) :
    idealDeg g (κ.val + 1) t
      = idealDeg g κ.val t ⊔ (homogeneousSubmodule (Fin (n + 1)) F (t - e)).map (mulForm g κ) := by
  apply le_antisymm
  · intro w hw
    obtain ⟨a, ha, hah, -, rfl⟩ := mem_firstIdeal_homog hg (mem_idealDeg.1 hw).2 (mem_idealDeg.1 hw).1
    have e1 : ∑ i, a i * g i = (∑ i, (if i = κ then 0 else a i) * g i) + a κ * g κ := by
      have : ∀ i, a i * g i = (if i = κ then 0 else a i) * g i + (if i = κ then a κ * g κ else 0) := by
        intro i
        by_cases hi : i = κ
        · rw [if_pos hi, if_pos hi, hi]; ring
        · rw [if_neg hi, if_neg hi]; ring
      conv_lhs => rw [Finset.sum_congr rfl (fun i _ => this i)]
      rw [Finset.sum_add_distrib, Finset.sum_ite_eq' Finset.univ κ, if_pos (Finset.mem_univ _)]
    rw [e1]
    refine Submodule.add_mem_sup (mem_idealDeg.2 ⟨mem_firstIdeal.2 ⟨_, fun i hi => ?_, rfl⟩, ?_⟩) ⟨a κ, hah κ, rfl⟩
    · beta_reduce
      by_cases hik : i = κ
      · exact if_pos hik
      · rw [if_neg hik]
        refine ha i ?_
        have : i.val ≠ κ.val := fun h => hik (Fin.ext h)
        omega
    · refine IsHomogeneous.sum _ _ _ (fun i _ => ?_)
      have : t = (t - e) + e := by omega
      rw [this]
      refine IsHomogeneous.mul ?_ (hg i)
      split
      · exact isHomogeneous_zero _ _ _
      · exact hah i
  · refine sup_le ?_ ?_
    · intro w hw
      obtain ⟨h1, h2⟩ := mem_idealDeg.1 hw
      obtain ⟨a, ha, hs⟩ := mem_firstIdeal.1 h1
      exact mem_idealDeg.2 ⟨mem_firstIdeal.2 ⟨a, fun i hi => ha i (by omega), hs⟩, h2⟩
    · rintro _ ⟨a, ha, rfl⟩
      refine mem_idealDeg.2 ⟨?_, ?_⟩
      · exact Ideal.mul_mem_left _ _ (Ideal.subset_span ⟨κ, Nat.lt_succ_self _, rfl⟩)
      · have : t = (t - e) + e := by omega
        rw [this]
        exact IsHomogeneous.mul ha (hg κ)

theorem idealDeg_inter {g : Fin (n + 1) → MvPolynomial (Fin (n + 1)) F} (hg : ∀ i, (g i).IsHomogeneous e)
    (h : ∀ k, k ≤ n + 1 → ∀ t, TrivSyz g e k t) (κ : Fin (n + 1)) {t : ℕ} (ht : e ≤ t) :
    idealDeg g κ.val t ⊓ (homogeneousSubmodule (Fin (n + 1)) F (t - e)).map (mulForm g κ)
      = (idealDeg g κ.val (t - e)).map (mulForm g κ) := by
  apply le_antisymm
  · rintro _ ⟨hw, a, ha, rfl⟩
    exact ⟨a, mem_idealDeg.2 ⟨regular_first hg h κ ha (mem_idealDeg.1 hw).1, ha⟩, rfl⟩
  · rintro _ ⟨a, ha, rfl⟩
    obtain ⟨h1, h2⟩ := mem_idealDeg.1 ha
    refine ⟨mem_idealDeg.2 ⟨Ideal.mul_mem_right _ _ h1, ?_⟩, a, h2, rfl⟩
    have : t = (t - e) + e := by omega
    rw [this]
    exact IsHomogeneous.mul h2 (hg κ)

theorem form_ne_zero {g : Fin (n + 1) → MvPolynomial (Fin (n + 1)) F} (hg : ∀ i, (g i).IsHomogeneous e) (he : 1 ≤ e)
    (h : ∀ k, k ≤ n + 1 → ∀ t, TrivSyz g e k t) (κ : Fin (n + 1)) : g κ ≠ 0 := by
  intro h0
  have h1 := regular_first hg h κ (isHomogeneous_one _ _) (by rw [h0, mul_zero]; exact Submodule.zero_mem _)
  have h2 : (1 : MvPolynomial (Fin (n + 1)) F) ∈ idealDeg g κ.val 0 := mem_idealDeg.2 ⟨h1, isHomogeneous_one _ _⟩
  rw [idealDeg_small hg (by omega), Submodule.mem_bot] at h2
  exact one_ne_zero h2

theorem mulForm_injective {g : Fin (n + 1) → MvPolynomial (Fin (n + 1)) F} {κ : Fin (n + 1)} (h : g κ ≠ 0) :
    Function.Injective (mulForm g κ) := fun _ _ hab => mul_right_cancel₀ h hab

theorem finrank_map_inj {V W : Type} [AddCommGroup V] [Module F V] [AddCommGroup W] [Module F W] {φ : V →ₗ[F] W}
    (h : Function.Injective φ) (p : Submodule F V) : Module.finrank F (p.map φ) = Module.finrank F p :=
  (Submodule.equivMapOfInjective φ h p).finrank_eq.symm

/-- The dimension in degree `t` of the quotient by the first `k` forms. -/
noncomputable def quotDim (g : Fin (n + 1) → MvPolynomial (Fin (n + 1)) F) (k t : ℕ) : ℤ :=
  (Module.finrank F (homogeneousSubmodule (Fin (n + 1)) F t) : ℤ) - Module.finrank F (idealDeg g k t)

theorem quotDim_zero (g : Fin (n + 1) → MvPolynomial (Fin (n + 1)) F) (t : ℕ) :
    quotDim g 0 t = Module.finrank F (homogeneousSubmodule (Fin (n + 1)) F t) := by
  rw [quotDim, idealDeg_zero, finrank_bot]; simp

theorem quotDim_succ {g : Fin (n + 1) → MvPolynomial (Fin (n + 1)) F} (hg : ∀ i, (g i).IsHomogeneous e) (he : 1 ≤ e)
    (h : ∀ k, k ≤ n + 1 → ∀ t, TrivSyz g e k t) (κ : Fin (n + 1)) (t : ℕ) :
    quotDim g (κ.val + 1) t = quotDim g κ.val t - if e ≤ t then quotDim g κ.val (t - e) else 0 := by
  by_cases ht : e ≤ t
  · rw [if_pos ht]
    have hinj := mulForm_injective (form_ne_zero hg he h κ)
    have h1 := Submodule.finrank_sup_add_finrank_inf_eq (idealDeg g κ.val t)
      ((homogeneousSubmodule (Fin (n + 1)) F (t - e)).map (mulForm g κ))
    rw [← idealDeg_succ hg κ ht, idealDeg_inter hg h κ ht,
      finrank_map_inj hinj, finrank_map_inj hinj] at h1
    rw [quotDim, quotDim, quotDim]
    omega
  · rw [if_neg ht, quotDim, quotDim, idealDeg_small hg (by omega), idealDeg_small hg (by omega), sub_zero]

/-- The polynomial with the given coordinates. -/
noncomputable def comboMap (F : Type) [Field F] (n : ℕ) (L : List IVec) :
    (Fin L.length → F) →ₗ[F] MvPolynomial (Fin (n + 1)) F :=
  ∑ k : Fin L.length, (LinearMap.proj k).smulRight (xpow F (ev n (L.getD k [])))

theorem comboMap_apply (L : List IVec) (G : ℕ → F) : comboMap F n L (fun k => G k) = combo n L G := by
  rw [comboMap, LinearMap.sum_apply, combo, Finset.sum_range]
  rfl

theorem comboMap_eq (L : List IVec) (v : Fin L.length → F) :
    comboMap F n L v = combo n L (fun k => if h : k < L.length then v ⟨k, h⟩ else 0) := by
  rw [← comboMap_apply]
  congr 1
  funext k
  rw [dif_pos k.isLt]

theorem comboMap_injective {L : List IVec} {l : ℤ} (hL : IsTable n l L) : Function.Injective (comboMap F n L) := by
  intro v w h
  rw [comboMap_eq, comboMap_eq] at h
  funext k
  have := congrArg (coeff (expo (n + 1) (L.getD k []))) h
  rw [coeff_combo hL _ k.isLt, coeff_combo hL _ k.isLt, dif_pos k.isLt, dif_pos k.isLt] at this
  exact this

theorem comboMap_range {L : List IVec} {l : ℕ} (hL : IsTable n l L) :
    LinearMap.range (comboMap F n L) = homogeneousSubmodule (Fin (n + 1)) F l := by
  ext w
  constructor
  · rintro ⟨v, rfl⟩
    rw [comboMap_eq]
    exact combo_isHomogeneous hL _
  · intro hw
    exact ⟨_, (comboMap_apply L _).trans (combo_coeff hL hw)⟩

/-- The dimension of the space of forms of degree `t`. -/
theorem finrank_forms {L : List IVec} {l : ℕ} (hL : IsTable n l L) :
    Module.finrank F (homogeneousSubmodule (Fin (n + 1)) F l) = L.length := by
  rw [← comboMap_range hL, LinearMap.finrank_range_of_inj (comboMap_injective hL), Module.finrank_fin_fun]

theorem finrank_homogeneous (n t : ℕ) :
    Module.finrank F (homogeneousSubmodule (Fin (n + 1)) F t) = (t + n).choose n := by
  rw [finrank_forms (comps_isTable n t), comps_length]

theorem quotDim_series {g : Fin (n + 1) → MvPolynomial (Fin (n + 1)) F} (hg : ∀ i, (g i).IsHomogeneous e) (he : 1 ≤ e)
    (h : ∀ k, k ≤ n + 1 → ∀ t, TrivSyz g e k t) : ∀ k, k ≤ n + 1 →
    PowerSeries.mk (quotDim g k) = (1 - PowerSeries.X ^ e) ^ k * PowerSeries.mk (1 : ℕ → ℤ) ^ (n + 1) := by
  intro k
  induction k with
  | zero =>
    intro _
    rw [pow_zero, one_mul, PowerSeries.mk_one_pow_eq_mk_choose_add]
    ext t
    rw [PowerSeries.coeff_mk, PowerSeries.coeff_mk, quotDim_zero, finrank_homogeneous, add_comm]
  | succ k ih =>
    intro hk
    rw [pow_succ', mul_assoc, ← ih (by omega), sub_mul, one_mul]
    ext t
    rw [map_sub, PowerSeries.coeff_mk, PowerSeries.coeff_mk, PowerSeries.coeff_X_pow_mul', PowerSeries.coeff_mk]
    exact quotDim_succ hg he h ⟨k, hk⟩ t

theorem geom_series (e : ℕ) :
    (1 - PowerSeries.X ^ e) * PowerSeries.mk (1 : ℕ → ℤ) = ∑ i ∈ Finset.range e, (PowerSeries.X : PowerSeries ℤ) ^ i := by
  rw [← geom_sum_mul_neg, mul_assoc]
  have : (1 - PowerSeries.X) * PowerSeries.mk (1 : ℕ → ℤ) = 1 := by
    rw [mul_comm]; exact PowerSeries.mk_one_mul_one_sub_eq_one ℤ
  rw [this, mul_one]

/-- The Hilbert function of a complete intersection of `n+1` forms of degree `e` in `n+1` variables. -/
theorem quotDim_eq {M : ℕ} {g : Fin (n + 1) → MvPolynomial (Fin (n + 1)) F} (hg : ∀ i, (g i).IsHomogeneous e)
    (he : 1 ≤ e) (hM : ∀ i, X i ^ M ∈ Ideal.span (Set.range g)) (t : ℕ) :
    quotDim g (n + 1) t = ((∑ i ∈ Finset.range e, (Polynomial.X : Polynomial ℤ) ^ i) ^ (n + 1)).coeff t := by
  have h := quotDim_series hg he (fun k hk t => trivSyz_all hg he hM hk t) (n + 1) (le_refl _)
  rw [← mul_pow, geom_series] at h
  have := congrArg (PowerSeries.coeff t) h
  rw [PowerSeries.coeff_mk] at this
  rw [this, ← Polynomial.coeff_coe]
  congr 1
  rw [Polynomial.coe_pow]
  congr 1
  rw [← Polynomial.coeToPowerSeries.ringHom_apply, map_sum]
  refine Finset.sum_congr rfl (fun i _ => ?_)
  rw [Polynomial.coeToPowerSeries.ringHom_apply, Polynomial.coe_pow, Polynomial.coe_X]

end

end Verif
