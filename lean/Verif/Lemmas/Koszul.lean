import Mathlib.RingTheory.Ideal.Span
import Mathlib.RingTheory.Ideal.Operations
import Mathlib.Algebra.BigOperators.Ring.Finset
import Mathlib.Algebra.Module.Prod
import Mathlib.LinearAlgebra.Prod
import Mathlib.Tactic.LinearCombination

/-!
Koszul syzygies.  If the ideal of `f_0, ..., f_{k-1}` contains a regular sequence of length `k`, every
syzygy of the `f_i` is a combination of the trivial ones `f_j e_i - f_i e_j`.

The Koszul complex of `k` elements is the `k`-fold cone, so as a module it is `S^(2^k)`, written here
as nested pairs.
-/

namespace Verif.Koszul

variable {S : Type} [CommRing S]

/-- The Koszul complex as a module. -/
def T (S : Type) : ℕ → Type
  | 0 => S
  | k + 1 => T S k × T S k

instance : ∀ k, AddCommGroup (T S k)
  | 0 => inferInstanceAs (AddCommGroup S)
  | k + 1 => letI := instAddCommGroupT k; inferInstanceAs (AddCommGroup (T S k × T S k))

instance : ∀ k, Module S (T S k)
  | 0 => inferInstanceAs (Module S S)
  | k + 1 => letI := instModuleT k; inferInstanceAs (Module S (T S k × T S k))

/-- Elements for `k = 0`. -/
def c0 (s : S) : T S 0 := s
/-- Elements for `k + 1`. -/
def pr {k : ℕ} (a b : T S k) : T S (k + 1) := (a, b)

theorem c0_cases (z : T S 0) : ∃ s, z = c0 s := ⟨z, rfl⟩
theorem c0_ind {P : T S 0 → Prop} (h : ∀ s, P (c0 s)) (z : T S 0) : P z := h z
theorem pr_cases {k : ℕ} (z : T S (k + 1)) : ∃ a b, z = pr a b := ⟨z.1, z.2, rfl⟩
theorem c0_inj {a b : S} (h : c0 a = c0 b) : a = b := h
theorem pr_inj {k : ℕ} {a b a' b' : T S k} (h : pr a b = pr a' b') : a = a' ∧ b = b' :=
  ⟨congrArg Prod.fst h, congrArg Prod.snd h⟩
theorem c0_zero : (0 : T S 0) = c0 0 := rfl
theorem c0_add (a b : S) : c0 (a + b) = c0 a + c0 b := rfl
theorem c0_smul (a b : S) : c0 (a * b) = a • c0 b := rfl
theorem pr_smul {k : ℕ} (y : S) (a b : T S k) : y • pr a b = pr (y • a) (y • b) := rfl
theorem pr_add {k : ℕ} (a b a' b' : T S k) : pr a b + pr a' b' = pr (a + a') (b + b') := rfl
theorem pr_sub {k : ℕ} (a b a' b' : T S k) : pr a b - pr a' b' = pr (a - a') (b - b') := rfl
theorem pr_zero (k : ℕ) : (0 : T S (k + 1)) = pr 0 0 := rfl

/-- The differential. -/
def dl (f : ℕ → S) : ∀ k, T S k →ₗ[S] T S k
  | 0 => 0
  | k + 1 => LinearMap.prod ((dl f k).comp (LinearMap.fst S (T S k) (T S k))
        + f k • LinearMap.snd S (T S k) (T S k))
      (-(dl f k).comp (LinearMap.snd S (T S k) (T S k)))

theorem dl_zero (f : ℕ → S) (z : T S 0) : dl f 0 z = 0 := rfl
theorem dl_succ (f : ℕ → S) (k : ℕ) (a b : T S k) :
    dl f (k + 1) (pr a b) = pr (dl f k a + f k • b) (- dl f k b) := rfl

theorem dl_dl (f : ℕ → S) (k) (z : T S k) : dl f k (dl f k z) = 0 := by
  induction k with
  | zero => rfl
  | succ k ih =>
    obtain ⟨a, b, rfl⟩ := pr_cases z
    rw [dl_succ, dl_succ, map_add, map_smul, map_neg, ih a, ih b, pr_zero]
    rw [smul_neg, neg_zero, neg_zero, zero_add, add_neg_cancel]

/-- Homogeneous elements of degree `j`. -/
def IsDeg : ∀ k, ℤ → T S k → Prop
  | 0, j, z => j = 0 ∨ z = 0
  | k + 1, j, z => IsDeg k j z.1 ∧ IsDeg k (j - 1) z.2

theorem isDeg_zero {j : ℤ} {z : T S 0} : IsDeg 0 j z ↔ j = 0 ∨ z = 0 := Iff.rfl
theorem isDeg_succ {k : ℕ} {j : ℤ} {a b : T S k} :
    IsDeg (k + 1) j (pr a b) ↔ IsDeg k j a ∧ IsDeg k (j - 1) b := Iff.rfl

theorem IsDeg.zero (k) (j : ℤ) : IsDeg k j (0 : T S k) := by
  induction k generalizing j with
  | zero => exact Or.inr rfl
  | succ k ih => exact ⟨ih j, ih (j - 1)⟩

theorem IsDeg.add {k} {j : ℤ} {z w : T S k} (h1 : IsDeg k j z) (h2 : IsDeg k j w) :
    IsDeg k j (z + w) := by
  induction k generalizing j with
  | zero =>
    rcases h1 with h1 | h1
    · exact Or.inl h1
    · rcases h2 with h2 | h2
      · exact Or.inl h2
      · right; rw [h1, h2, add_zero]
  | succ k ih =>
    obtain ⟨a, b, rfl⟩ := pr_cases z
    obtain ⟨a', b', rfl⟩ := pr_cases w
    exact ⟨ih h1.1 h2.1, ih h1.2 h2.2⟩

theorem IsDeg.smul (y : S) {k} {j : ℤ} {z : T S k} (h1 : IsDeg k j z) : IsDeg k j (y • z) := by
  induction k generalizing j with
  | zero =>
    rcases h1 with h1 | h1
    · exact Or.inl h1
    · right; rw [h1, smul_zero]
  | succ k ih =>
    obtain ⟨a, b, rfl⟩ := pr_cases z
    exact ⟨ih h1.1, ih h1.2⟩

theorem IsDeg.neg {k} {j : ℤ} {z : T S k} (h : IsDeg k j z) : IsDeg k j (-z) := by
  have := IsDeg.smul (-1 : S) h
  rwa [neg_one_smul] at this

theorem IsDeg.sub {k} {j : ℤ} {z w : T S k} (h : IsDeg k j z) (h' : IsDeg k j w) :
    IsDeg k j (z - w) := by
  rw [sub_eq_add_neg]; exact h.add h'.neg

theorem IsDeg.dl (f : ℕ → S) {k} {j : ℤ} {z : T S k} (h : IsDeg k j z) :
    IsDeg k (j - 1) (dl f k z) := by
  induction k generalizing j with
  | zero => exact Or.inr rfl
  | succ k ih =>
    obtain ⟨a, b, rfl⟩ := pr_cases z
    rw [dl_succ]
    exact ⟨(ih h.1).add (IsDeg.smul _ h.2), (ih h.2).neg⟩

theorem IsDeg.eq_zero {k} {j : ℤ} {z : T S k} (hj : (k : ℤ) < j ∨ j < 0) (h : IsDeg k j z) : z = 0 := by
  induction k generalizing j with
  | zero =>
    rcases h with h | h
    · simp at hj; omega
    · exact h
  | succ k ih =>
    obtain ⟨a, b, rfl⟩ := pr_cases z
    have h1 : a = 0 := ih (by push_cast at hj; omega) h.1
    have h2 : b = 0 := ih (by push_cast at hj; omega) h.2
    rw [h1, h2]; rfl

/-- All components in the ideal `I`. -/
def Mem (I : Ideal S) : ∀ k, T S k → Prop
  | 0, z => (show S from z) ∈ I
  | k + 1, z => Mem I k z.1 ∧ Mem I k z.2

theorem mem_zero {I : Ideal S} {s : S} : Mem I 0 (c0 s) ↔ s ∈ I := Iff.rfl
theorem mem_succ {I : Ideal S} {k : ℕ} {a b : T S k} : Mem I (k + 1) (pr a b) ↔ Mem I k a ∧ Mem I k b :=
  Iff.rfl

theorem Mem.zero (I : Ideal S) (k) : Mem I k (0 : T S k) := by
  induction k with
  | zero => exact I.zero_mem
  | succ k ih => exact ⟨ih, ih⟩

theorem Mem.add {I : Ideal S} {k} {z w : T S k} (h1 : Mem I k z) (h2 : Mem I k w) :
    Mem I k (z + w) := by
  induction k with
  | zero => exact I.add_mem h1 h2
  | succ k ih =>
    obtain ⟨a, b, rfl⟩ := pr_cases z
    obtain ⟨a', b', rfl⟩ := pr_cases w
    exact ⟨ih h1.1 h2.1, ih h1.2 h2.2⟩

theorem Mem.smul {I : Ideal S} (y : S) {k} {z : T S k} (h1 : Mem I k z) : Mem I k (y • z) := by
  induction k with
  | zero => exact I.mul_mem_left y h1
  | succ k ih =>
    obtain ⟨a, b, rfl⟩ := pr_cases z
    exact ⟨ih h1.1, ih h1.2⟩

theorem Mem.neg {I : Ideal S} {k} {z : T S k} (h : Mem I k z) : Mem I k (-z) := by
  have := Mem.smul (-1 : S) h
  rwa [neg_one_smul] at this

theorem Mem.sub {I : Ideal S} {k} {z w : T S k} (h : Mem I k z) (h' : Mem I k w) :
    Mem I k (z - w) := by
  rw [sub_eq_add_neg]; exact h.add h'.neg

theorem Mem.dl {I : Ideal S} (f : ℕ → S) {k} {z : T S k} (h : Mem I k z) : Mem I k (dl f k z) := by
  induction k with
  | zero => exact Mem.zero I 0
  | succ k ih =>
    obtain ⟨a, b, rfl⟩ := pr_cases z
    rw [dl_succ]
    exact ⟨(ih h.1).add (Mem.smul _ h.2), (ih h.2).neg⟩

theorem Mem.mono {I J : Ideal S} (hIJ : I ≤ J) {k} {z : T S k} (h : Mem I k z) : Mem J k z := by
  induction k with
  | zero => exact hIJ h
  | succ k ih =>
    obtain ⟨a, b, rfl⟩ := pr_cases z
    exact ⟨ih h.1, ih h.2⟩

theorem mem_span_smul {I : Ideal S} {y : S} (hy : y ∈ I) {k} (z : T S k) : Mem I k (y • z) := by
  induction k with
  | zero =>
    induction z using c0_ind with | _ s
    rw [← c0_smul, mem_zero]; exact I.mul_mem_right s hy
  | succ k ih =>
    obtain ⟨a, b, rfl⟩ := pr_cases z
    exact ⟨ih a, ih b⟩

theorem mem_bot {k} {z : T S k} (h : Mem ⊥ k z) : z = 0 := by
  induction k with
  | zero =>
    induction z using c0_ind with | _ s
    rw [mem_zero, Ideal.mem_bot] at h
    rw [h]; rfl
  | succ k ih =>
    obtain ⟨a, b, rfl⟩ := pr_cases z
    have h1 : a = 0 := ih h.1
    have h2 : b = 0 := ih h.2
    rw [h1, h2]; rfl

theorem smul_mem_cancel {I : Ideal S} {y : S} (hy : ∀ s, y * s ∈ I → s ∈ I) {k} {z : T S k}
    (h : Mem I k (y • z)) : Mem I k z := by
  induction k with
  | zero =>
    induction z using c0_ind with | _ s
    exact hy s h
  | succ k ih =>
    obtain ⟨a, b, rfl⟩ := pr_cases z
    exact ⟨ih h.1, ih h.2⟩

theorem mem_sup_split {I : Ideal S} {y : S} {k} {j : ℤ} {z : T S k}
    (h : Mem (I ⊔ Ideal.span {y}) k z) (hd : IsDeg k j z) :
    ∃ s : T S k, IsDeg k j s ∧ Mem I k (z - y • s) := by
  induction k generalizing j with
  | zero =>
    rcases hd with hd | hd
    · induction z using c0_ind with | _ s
      rw [mem_zero] at h
      obtain ⟨a, ha, b, hb, e⟩ := Submodule.mem_sup.1 h
      obtain ⟨c, rfl⟩ := Ideal.mem_span_singleton'.1 hb
      refine ⟨c0 c, Or.inl hd, ?_⟩
      have : c0 s - y • c0 c = c0 a := by
        rw [← e, c0_add, mul_comm, c0_smul]; abel
      rw [this]; exact ha
    · refine ⟨0, Or.inr rfl, ?_⟩
      rw [hd, smul_zero, sub_zero]
      exact Mem.zero I 0
  | succ k ih =>
    obtain ⟨a, b, rfl⟩ := pr_cases z
    obtain ⟨s1, h1, h2⟩ := ih h.1 hd.1
    obtain ⟨s2, h3, h4⟩ := ih h.2 hd.2
    exact ⟨pr s1 s2, ⟨h1, h3⟩, ⟨h2, h4⟩⟩

/-- Multiplication by `y` is homotopic to zero. -/
def Null (f : ℕ → S) (k : ℕ) (y : S) : Prop :=
  ∃ h : T S k →ₗ[S] T S k, (∀ z, dl f k (h z) + h (dl f k z) = y • z) ∧
    (∀ j z, IsDeg k j z → IsDeg k (j + 1) (h z)) ∧ ∀ (I : Ideal S) z, Mem I k z → Mem I k (h z)

theorem Null.zero (f : ℕ → S) (k : ℕ) : Null f k 0 :=
  ⟨0, fun z => by simp, fun j _ _ => IsDeg.zero k _, fun I _ _ => Mem.zero I k⟩

theorem Null.add {f : ℕ → S} {k : ℕ} {y y' : S} (h : Null f k y) (h' : Null f k y') :
    Null f k (y + y') := by
  obtain ⟨g, g1, g2, g3⟩ := h
  obtain ⟨g', g1', g2', g3'⟩ := h'
  refine ⟨g + g', fun z => ?_, fun j z hz => (g2 j z hz).add (g2' j z hz),
    fun I z hz => (g3 I z hz).add (g3' I z hz)⟩
  rw [LinearMap.add_apply, LinearMap.add_apply, map_add, add_smul, ← g1 z, ← g1' z]
  abel

theorem Null.mul {f : ℕ → S} {k : ℕ} {y : S} (a : S) (h : Null f k y) : Null f k (a * y) := by
  obtain ⟨g, g1, g2, g3⟩ := h
  refine ⟨a • g, fun z => ?_, fun j z hz => (g2 j z hz).smul a, fun I z hz => (g3 I z hz).smul a⟩
  rw [LinearMap.smul_apply, LinearMap.smul_apply, map_smul, ← smul_add, g1 z, smul_smul]

/-- A pair of maps as a map of pairs. -/
def prMap {k : ℕ} (g g' : T S k →ₗ[S] T S k) : T S (k + 1) →ₗ[S] T S (k + 1) :=
  LinearMap.prod (g.comp (LinearMap.fst S (T S k) (T S k))) (g'.comp (LinearMap.snd S (T S k) (T S k)))

theorem prMap_pr {k : ℕ} (g g' : T S k →ₗ[S] T S k) (a b : T S k) :
    prMap g g' (pr a b) = pr (g a) (g' b) := rfl

/-- The map `(a, b) ↦ (0, a)`. -/
def shift (k : ℕ) : T S (k + 1) →ₗ[S] T S (k + 1) :=
  LinearMap.prod 0 (LinearMap.fst S (T S k) (T S k))

theorem shift_pr {k : ℕ} (a b : T S k) : shift k (pr a b) = pr 0 a := rfl

theorem Null.succ {f : ℕ → S} {k : ℕ} {y : S} (h : Null f k y) : Null f (k + 1) y := by
  obtain ⟨g, g1, g2, g3⟩ := h
  refine ⟨prMap g (-g), ?_, ?_, ?_⟩
  · intro z
    obtain ⟨a, b, rfl⟩ := pr_cases z
    rw [pr_smul, ← g1 a, ← g1 b, prMap_pr, dl_succ, dl_succ, prMap_pr, pr_add]
    rw [LinearMap.neg_apply, LinearMap.neg_apply, map_neg, map_neg, neg_neg, map_add, map_smul, neg_neg,
      smul_neg]
    congr 1
    abel
  · intro j z hz
    obtain ⟨a, b, rfl⟩ := pr_cases z
    refine ⟨g2 j a hz.1, ?_⟩
    have := (g2 (j - 1) b hz.2).neg
    rw [sub_add_cancel] at this
    rw [add_sub_cancel_right]
    exact this
  · intro I z hz
    obtain ⟨a, b, rfl⟩ := pr_cases z
    exact ⟨g3 I a hz.1, (g3 I b hz.2).neg⟩

theorem Null.last (f : ℕ → S) (k : ℕ) : Null f (k + 1) (f k) := by
  refine ⟨shift k, ?_, ?_, ?_⟩
  · intro z
    obtain ⟨a, b, rfl⟩ := pr_cases z
    rw [shift_pr, dl_succ, dl_succ, shift_pr, pr_add, pr_smul, map_zero, zero_add, add_zero]
    congr 1
    abel
  · intro j z hz
    obtain ⟨a, b, rfl⟩ := pr_cases z
    refine ⟨IsDeg.zero k _, ?_⟩
    rw [add_sub_cancel_right]
    exact hz.1
  · intro I z hz
    obtain ⟨a, b, rfl⟩ := pr_cases z
    exact ⟨Mem.zero I k, hz.1⟩

theorem Null.entry (f : ℕ → S) (k i : ℕ) (hi : i < k) : Null f k (f i) := by
  induction k with
  | zero => omega
  | succ k ih =>
    by_cases h : i = k
    · subst h; exact Null.last f i
    · exact (ih (by omega)).succ

theorem Null.span (f : ℕ → S) (k : ℕ) {y : S} (h : y ∈ Ideal.span (f '' {i | i < k})) : Null f k y := by
  induction h using Submodule.span_induction with
  | mem x hx => obtain ⟨i, hi, rfl⟩ := hx; exact Null.entry f k i hi
  | zero => exact Null.zero f k
  | add x y _ _ hx hy => exact hx.add hy
  | smul a x _ hx => exact hx.mul a

/-- Exactness modulo `I` in degree `j`. -/
def Exact (f : ℕ → S) (k : ℕ) (I : Ideal S) (j : ℤ) : Prop :=
  ∀ z : T S k, IsDeg k j z → Mem I k (dl f k z) →
    ∃ w : T S k, IsDeg k (j + 1) w ∧ Mem I k (dl f k w - z)

theorem exact_step {f : ℕ → S} {k : ℕ} {I : Ideal S} {y : S} {j : ℤ}
    (hE : Exact f k (I ⊔ Ideal.span {y}) (j + 1)) (hy : ∀ s, y * s ∈ I → s ∈ I) (hn : Null f k y) :
    Exact f k I j := by
  intro z hz hdz
  obtain ⟨h, h1, h2, h3⟩ := hn
  have e1 := h1 z
  have hyz : Mem (I ⊔ Ideal.span {y}) k (y • z) :=
    mem_span_smul (Submodule.mem_sup_right (Ideal.mem_span_singleton_self y)) z
  have hdw : Mem (I ⊔ Ideal.span {y}) k (dl f k (h z)) := by
    have : dl f k (h z) = y • z - h (dl f k z) := by rw [← e1]; abel
    rw [this]
    exact hyz.sub ((h3 I _ hdz).mono le_sup_left)
  obtain ⟨t, ht, hmt⟩ := hE (h z) (h2 j z hz) hdw
  have hdeg : IsDeg k (j + 1) (dl f k t - h z) := by
    have := IsDeg.dl f ht
    rw [add_sub_cancel_right] at this
    exact this.sub (h2 j z hz)
  obtain ⟨s, hs, hms⟩ := mem_sup_split hmt hdeg
  refine ⟨-s, hs.neg, ?_⟩
  apply smul_mem_cancel hy
  have e2 : y • (dl f k (-s) - z) = dl f k (dl f k t - h z - y • s) - h (dl f k z) := by
    rw [map_sub, map_sub, dl_dl, map_smul, map_neg, smul_sub, ← e1, smul_neg]
    abel
  rw [e2]
  exact (hms.dl f).sub (h3 I _ hdz)

/-- The ideal of the first `t` elements. -/
def first (y : ℕ → S) (t : ℕ) : Ideal S := Ideal.span (y '' {i | i < t})

theorem first_succ (y : ℕ → S) (t : ℕ) : first y (t + 1) = first y t ⊔ Ideal.span {y t} := by
  rw [first, first, ← Ideal.span_union]
  congr 1
  ext x
  constructor
  · rintro ⟨i, hi, rfl⟩
    by_cases h : i = t
    · subst h; right; rfl
    · left; exact ⟨i, by have : i < t + 1 := hi; show i < t; omega, rfl⟩
  · rintro (⟨i, hi, rfl⟩ | hx)
    · exact ⟨i, by have : i < t := hi; show i < t + 1; omega, rfl⟩
    · exact ⟨t, by show t < t + 1; omega, hx.symm⟩

/-- `y_0, ..., y_{k-1}` is a regular sequence. -/
def Regular (y : ℕ → S) (k : ℕ) : Prop := ∀ t, t < k → ∀ s, y t * s ∈ first y t → s ∈ first y t

theorem exact_of_regular {f y : ℕ → S} {k : ℕ} (hreg : Regular y k)
    (hy : ∀ i, i < k → y i ∈ Ideal.span (f '' {i | i < k})) (j : ℤ) (hj : 1 ≤ j) : Exact f k ⊥ j := by
  have key : ∀ r, r ≤ k → ∀ j : ℤ, (k : ℤ) - (r : ℤ) < (k - r : ℤ) + j → 1 ≤ j →
      Exact f k (first y (k - r)) (j + (k - r : ℕ)) := by
    intro r
    induction r with
    | zero =>
      intro _ j _ hj z hz _
      have hz0 : z = 0 := IsDeg.eq_zero (by left; push_cast at hz ⊢; simp; omega) hz
      refine ⟨0, IsDeg.zero k _, ?_⟩
      rw [hz0, map_zero, sub_zero]
      exact Mem.zero _ k
    | succ r ih =>
      intro hr j _ hj
      have h1 := ih (by omega) j (by omega) hj
      have e : k - r = (k - (r + 1)) + 1 := by omega
      rw [e, first_succ] at h1
      refine exact_step (y := y (k - (r + 1))) ?_ (hreg _ (by omega)) (Null.span f k (hy _ (by omega)))
      push_cast at h1 ⊢
      rw [← add_assoc] at h1
      exact h1
  have := key k (le_refl _) j (by omega) hj
  rw [Nat.sub_self] at this
  have h0 : first y 0 = ⊥ := by
    rw [first]
    have : (y '' {i | i < 0}) = ∅ := by simp
    rw [this, Ideal.span_empty]
  rw [h0] at this
  simpa using this

/-! ### Degrees 0, 1 and 2 -/

/-- The element of degree 0. -/
def const : ∀ k, S → T S k
  | 0, s => c0 s
  | k + 1, s => pr (const k s) 0

/-- The element of degree 1 with coordinates `g`. -/
def enc (g : ℕ → S) : ∀ k, T S k
  | 0 => 0
  | k + 1 => pr (enc g k) (const k (g k))

theorem const_add (k) (a b : S) : const k (a + b) = const k a + const k b := by
  induction k with
  | zero => rfl
  | succ k ih => rw [const, const, const, ih, pr_add, add_zero]

theorem const_smul (k) (a b : S) : const k (a * b) = a • const k b := by
  induction k with
  | zero => rfl
  | succ k ih => rw [const, const, ih, pr_smul, smul_zero]

theorem const_neg (k) (a : S) : const k (-a) = - const k a := by
  rw [neg_eq_neg_one_mul, const_smul, neg_one_smul]

theorem const_inj (k) {a b : S} (h : const k a = const k b) : a = b := by
  induction k with
  | zero => exact c0_inj h
  | succ k ih => exact ih (pr_inj h).1

theorem const_zero (k) : const k (0 : S) = 0 := by
  induction k with
  | zero => rfl
  | succ k ih => rw [const, ih]; rfl

theorem const_isDeg (k) (a : S) : IsDeg k 0 (const k a) := by
  induction k with
  | zero => exact Or.inl rfl
  | succ k ih => exact ⟨ih, IsDeg.zero k _⟩

theorem enc_isDeg (g : ℕ → S) (k) : IsDeg k 1 (enc g k) := by
  induction k with
  | zero => exact Or.inr rfl
  | succ k ih =>
    refine ⟨ih, ?_⟩
    rw [sub_self]; exact const_isDeg k (g k)

theorem dl_const (f : ℕ → S) (k) (a : S) : dl f k (const k a) = 0 := by
  induction k with
  | zero => rfl
  | succ k ih =>
    rw [const, dl_succ, ih, map_zero, smul_zero, neg_zero, add_zero]; rfl

theorem dl_enc (f g : ℕ → S) (k) : dl f k (enc g k) = const k (∑ i ∈ Finset.range k, f i * g i) := by
  induction k with
  | zero => rw [dl_zero, Finset.range_zero, Finset.sum_empty, const_zero]
  | succ k ih =>
    rw [enc, dl_succ, ih, dl_const, neg_zero, Finset.sum_range_succ, const, const_add, const_smul]

theorem isDeg_zero_eq {k} {z : T S k} (h : IsDeg k 0 z) : ∃ a, z = const k a := by
  induction k with
  | zero => exact c0_cases z
  | succ k ih =>
    obtain ⟨a, b, rfl⟩ := pr_cases z
    obtain ⟨x, rfl⟩ := ih h.1
    have hb : b = 0 := IsDeg.eq_zero (Or.inr (by norm_num)) h.2
    exact ⟨x, by rw [hb, const]⟩

theorem enc_congr {g g' : ℕ → S} {k} (h : ∀ i, i < k → g i = g' i) : enc g k = enc g' k := by
  induction k with
  | zero => rfl
  | succ k ih => rw [enc, enc, ih (fun i hi => h i (by omega)), h k (by omega)]

theorem enc_inj {g g' : ℕ → S} {k} (h : enc g k = enc g' k) : ∀ i, i < k → g i = g' i := by
  induction k with
  | zero => intro i hi; omega
  | succ k ih =>
    intro i hi
    by_cases hik : i = k
    · subst hik; exact const_inj i (pr_inj h).2
    · exact ih (pr_inj h).1 i (by omega)

theorem isDeg_one_eq {k} {z : T S k} (h : IsDeg k 1 z) : ∃ g, z = enc g k := by
  induction k with
  | zero =>
    rcases h with h | h
    · norm_num at h
    · exact ⟨fun _ => 0, h⟩
  | succ k ih =>
    obtain ⟨a, b, rfl⟩ := pr_cases z
    obtain ⟨g, rfl⟩ := ih h.1
    have h2 : IsDeg k (1 - 1) b := h.2
    rw [sub_self] at h2
    obtain ⟨x, rfl⟩ := isDeg_zero_eq h2
    refine ⟨fun i => if i = k then x else g i, ?_⟩
    rw [enc, if_pos rfl, enc_congr (g := fun i => if i = k then x else g i) (g' := g)
      (fun i hi => if_neg (by omega))]

theorem enc_add (g g' : ℕ → S) (k) : enc (fun i => g i + g' i) k = enc g k + enc g' k := by
  induction k with
  | zero => exact (add_zero (0 : T S 0)).symm
  | succ k ih => rw [enc, enc, enc, ih, const_add, pr_add]

theorem enc_smul (y : S) (g : ℕ → S) (k) : enc (fun i => y * g i) k = y • enc g k := by
  induction k with
  | zero => exact (smul_zero y : y • (0 : T S 0) = 0).symm
  | succ k ih => rw [enc, enc, ih, const_smul, pr_smul]

/-- Elements of degree 2 are antisymmetric matrices. -/
theorem isDeg_two_eq (f : ℕ → S) {k} {z : T S k} (h : IsDeg k 2 z) :
    ∃ A : ℕ → ℕ → S, (∀ i j, A i j = - A j i) ∧ (∀ i, A i i = 0) ∧
      dl f k z = enc (fun i => ∑ j ∈ Finset.range k, A i j * f j) k := by
  induction k with
  | zero => exact ⟨fun _ _ => 0, by simp, by simp, rfl⟩
  | succ k ih =>
    obtain ⟨a, b, rfl⟩ := pr_cases z
    have h0 : IsDeg k 2 a := h.1
    obtain ⟨A, h1, h2, h3⟩ := ih h0
    have h4 : IsDeg k (2 - 1) b := h.2
    norm_num at h4
    obtain ⟨g, rfl⟩ := isDeg_one_eq h4
    refine ⟨fun i j => if i < k ∧ j < k then A i j else if i < k ∧ j = k then g i
      else if i = k ∧ j < k then - g j else 0, ?_, ?_, ?_⟩
    · intro i j
      by_cases hi : i < k
      · by_cases hj : j < k
        · simp only [hi, hj, and_self, if_true]; exact h1 i j
        · have hi' : i ≠ k := by omega
          by_cases hk : j = k <;> simp [hi, hi', hj, hk]
      · by_cases hj : j < k
        · have hj' : j ≠ k := by omega
          by_cases hk : i = k <;> simp [hj, hj', hi, hk]
        · simp [hi, hj]
    · intro i
      by_cases hi : i < k
      · simp [hi, h2]
      · simp [hi]
    · rw [dl_succ, h3, dl_enc, enc, ← enc_smul, ← enc_add]
      congr 1
      · apply enc_congr
        intro i hi
        rw [Finset.sum_range_succ]
        beta_reduce
        rw [if_neg (by omega), if_pos ⟨hi, rfl⟩, mul_comm (f k)]
        congr 1
        exact Finset.sum_congr rfl (fun j hj => by rw [if_pos ⟨hi, Finset.mem_range.1 hj⟩])
      · rw [← const_neg]
        congr 1
        rw [Finset.sum_range_succ]
        beta_reduce
        rw [if_neg (by omega), if_neg (by omega), if_neg (by omega), zero_mul,
          add_zero, ← Finset.sum_neg_distrib]
        refine Finset.sum_congr rfl (fun j hj => ?_)
        have := Finset.mem_range.1 hj
        rw [if_neg (by omega), if_neg (by omega), if_pos ⟨rfl, this⟩]
        ring

/-- If the ideal of `f_0, ..., f_{k-1}` contains a regular sequence of length `k`, the syzygies of the
`f_i` are the trivial ones. -/
theorem syzygy {f y : ℕ → S} {k : ℕ} (hreg : Regular y k)
    (hy : ∀ i, i < k → y i ∈ Ideal.span (f '' {i | i < k})) (g : ℕ → S)
    (hg : ∑ i ∈ Finset.range k, f i * g i = 0) :
    ∃ A : ℕ → ℕ → S, (∀ i j, A i j = - A j i) ∧ (∀ i, A i i = 0) ∧
      ∀ i, i < k → g i = ∑ j ∈ Finset.range k, A i j * f j := by
  obtain ⟨w, hw, hm⟩ := exact_of_regular hreg hy 1 (le_refl _) (enc g k) (enc_isDeg g k) (by
    rw [dl_enc, hg, const_zero]; exact Mem.zero _ k)
  have hw' : dl f k w = enc g k := sub_eq_zero.1 (mem_bot hm)
  obtain ⟨A, h1, h2, h3⟩ := isDeg_two_eq f (by norm_num at hw; exact hw)
  refine ⟨A, h1, h2, ?_⟩
  rw [hw'] at h3
  exact enc_inj h3

end Verif.Koszul
