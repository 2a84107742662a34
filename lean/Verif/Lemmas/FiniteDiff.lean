import Verif.Lemmas.NDBatch
import Verif.Spec.FiniteDiff
import Mathlib.Tactic.Ring

/-!
Finite differences: `finitediff_flint_nmod`.
-/

namespace Verif

open Spec

/-! ### forward differences of a function on `Nat` -/

section

variable {R : Type} [CommRing R]

/-- The `j`-th forward difference of `f` at `a`. -/
def fdiff : Nat → (Nat → R) → Nat → R
  | 0, f, a => f a
  | j + 1, f, a => fdiff j f (a + 1) - fdiff j f a

theorem fdiff_sum (j : Nat) {ι : Type} (s : Finset ι) (f : ι → Nat → R) (a : Nat) :
    fdiff j (fun y => ∑ i ∈ s, f i y) a = ∑ i ∈ s, fdiff j (f i) a := by
  induction j generalizing a with
  | zero => rfl
  | succ j ih => rw [fdiff, ih, ih, ← Finset.sum_sub_distrib]; rfl

theorem fdiff_mul (j : Nat) (f : Nat → R) (c : R) (a : Nat) : fdiff j (fun y => f y * c) a = fdiff j f a * c := by
  induction j generalizing a with
  | zero => rfl
  | succ j ih => rw [fdiff, ih, ih, ← sub_mul]; rfl

theorem fdiff_succ' (j : Nat) (f : Nat → R) (a : Nat) : fdiff (j + 1) f a = fdiff j (fun y => f (y + 1) - f y) a := by
  induction j generalizing a with
  | zero => rfl
  | succ j ih => rw [fdiff, ih, ih]; rfl

/-- A power is killed by more differences than its exponent. -/
theorem fdiff_pow (i : Nat) : ∀ (j a : Nat), i < j → fdiff j (fun y => (y : R) ^ i) a = 0 := by
  induction i using Nat.strong_induction_on with
  | _ i ih =>
    intro j a hj
    obtain ⟨j, rfl⟩ : ∃ j', j = j' + 1 := ⟨j - 1, by omega⟩
    rw [fdiff_succ']
    have : (fun y : Nat => ((y + 1 : Nat) : R) ^ i - (y : R) ^ i)
        = fun y : Nat => ∑ l ∈ Finset.range i, (y : R) ^ l * (i.choose l : R) := by
      funext y
      push_cast
      rw [add_pow, Finset.sum_range_succ]
      simp
    rw [this, fdiff_sum]
    refine Finset.sum_eq_zero (fun l hl => ?_)
    have := Finset.mem_range.1 hl
    rw [fdiff_mul, ih l this j a (by omega), zero_mul]

/-- Differences of a polynomial. -/
theorem fdiff_poly (m j : Nat) (g : Nat → R) (a : Nat) :
    fdiff j (fun y => ∑ i ∈ Finset.range m, (y : R) ^ i * g i) a
      = ∑ i ∈ Finset.range m, if i < j then 0 else fdiff j (fun y => (y : R) ^ i) a * g i := by
  rw [fdiff_sum]
  refine Finset.sum_congr rfl (fun i _ => ?_)
  rw [fdiff_mul]
  split
  · rename_i h; rw [fdiff_pow i j a h, zero_mul]
  · rfl

end

/-! ### the boxes -/

section

variable {q : Nat}

theorem boxOf_spec (d : Nat) (M : CMat (ZMod q)) :
    (∀ r c, r < d → c < d → M.e r c ≠ 0 → r < (boxOf d M).1 ∧ (boxOf d M).2 ≤ c) ∧
    ((boxOf d M) = (0, d) ∨ ((boxOf d M).1 ≤ d ∧ 0 < (boxOf d M).1 ∧ (boxOf d M).2 < d ∧
      ∃ r c, r < d ∧ c < d ∧ M.e r c ≠ 0)) := by
  -- one row
  have hrow : ∀ j, j < d → ∀ k, k ≤ d → ∀ b : Nat × Nat,
      let b' := (List.range k).foldl (fun b l =>
        if M.e j l ≠ 0 then (if b.1 ≤ j then j + 1 else b.1, if l < b.2 then l else b.2) else b) b
      b.1 ≤ b'.1 ∧ b'.2 ≤ b.2 ∧ (∀ c, c < k → M.e j c ≠ 0 → j < b'.1 ∧ b'.2 ≤ c) ∧
      (b' = b ∨ (b'.1 ≤ max b.1 d ∧ 0 < b'.1 ∧ b'.2 < d ∧ ∃ c, c < d ∧ M.e j c ≠ 0)) := by
    intro j hj k
    induction k with
    | zero => intro _ b; simp
    | succ k ih =>
      intro hk b
      obtain ⟨i1, i2, i3, i4⟩ := ih (by omega) b
      simp only [List.range_succ, List.foldl_append, List.foldl_cons, List.foldl_nil] at *
      generalize (List.range k).foldl (fun b l =>
        if M.e j l ≠ 0 then (if b.1 ≤ j then j + 1 else b.1, if l < b.2 then l else b.2) else b) b = b1 at *
      by_cases hz : M.e j k ≠ 0
      · rw [if_pos hz]
        refine ⟨?_, ?_, ?_, Or.inr ⟨?_, ?_, ?_, k, by omega, hz⟩⟩
        · simp only; split <;> omega
        · simp only; split <;> omega
        · intro c hc hcz
          by_cases hck : c = k
          · subst hck
            simp only
            constructor <;> split <;> omega
          · obtain ⟨a1, a2⟩ := i3 c (by omega) hcz
            simp only
            constructor <;> split <;> omega
        · simp only
          rcases i4 with rfl | ⟨h, -⟩
          · split <;> omega
          · split <;> omega
        · simp only; split <;> omega
        · simp only
          split <;> omega
      · rw [if_neg hz]
        refine ⟨i1, i2, fun c hc hcz => ?_, i4⟩
        by_cases hck : c = k
        · subst hck; exact absurd hcz hz
        · exact i3 c (by omega) hcz
  have hall : ∀ k, k ≤ d →
      let b' := (List.range k).foldl (fun b j => (List.range d).foldl (fun b l =>
        if M.e j l ≠ 0 then (if b.1 ≤ j then j + 1 else b.1, if l < b.2 then l else b.2) else b) b) (0, d)
      (∀ r c, r < k → c < d → M.e r c ≠ 0 → r < b'.1 ∧ b'.2 ≤ c) ∧
      (b' = (0, d) ∨ (b'.1 ≤ d ∧ 0 < b'.1 ∧ b'.2 < d ∧ ∃ r c, r < d ∧ c < d ∧ M.e r c ≠ 0)) := by
    intro k
    induction k with
    | zero => intro _; exact ⟨fun r c h => by omega, Or.inl rfl⟩
    | succ k ih =>
      intro hk
      obtain ⟨i1, i2⟩ := ih (by omega)
      obtain ⟨h1, h2, h3, h4⟩ := hrow k (by omega) d (le_refl _) ((List.range k).foldl (fun b j => (List.range d).foldl (fun b l =>
        if M.e j l ≠ 0 then (if b.1 ≤ j then j + 1 else b.1, if l < b.2 then l else b.2) else b) b) (0, d))
      rw [List.range_succ, List.foldl_append, List.foldl_cons, List.foldl_nil]
      refine ⟨fun r c hr hc hz => ?_, ?_⟩
      · by_cases hrk : r = k
        · subst hrk; exact h3 c hc hz
        · obtain ⟨a1, a2⟩ := i1 r c (by omega) hc hz
          exact ⟨by omega, by omega⟩
      · rcases h4 with h4 | ⟨a1, a2, a3, c, a4, a5⟩
        · rw [h4]; exact i2
        · refine Or.inr ⟨?_, a2, a3, k, c, by omega, a4, a5⟩
          rcases i2 with i2 | ⟨i2, -⟩
          · have hf := congrArg Prod.fst i2
            simp only at hf
            omega
          · omega
  exact hall d (le_refl _)

theorem boxOf_zero {d : Nat} {M : CMat (ZMod q)} : boxOf d M = (0, d) ↔ ∀ r c, r < d → c < d → M.e r c = 0 := by
  obtain ⟨h1, h2⟩ := boxOf_spec d M
  constructor
  · intro h r c hr hc
    by_contra hz
    obtain ⟨a, -⟩ := h1 r c hr hc hz
    rw [h] at a
    exact absurd a (by simp)
  · intro h
    rcases h2 with h2 | ⟨-, -, -, r, c, hr, hc, hz⟩
    · exact h2
    · exact absurd (h r c hr hc) hz

theorem trimLen_spec (d : Nat) (box : Nat → Nat × Nat) (len : Nat) :
    ((∀ i, i < len → box i = (0, d)) ∧ trimLen d box len = .error .ub) ∨
    ∃ m, trimLen d box len = .ok m ∧ 1 ≤ m ∧ m ≤ len ∧ box (m - 1) ≠ (0, d) ∧ ∀ i, m ≤ i → i < len → box i = (0, d) := by
  induction len with
  | zero => exact Or.inl ⟨fun i h => by omega, rfl⟩
  | succ l ih =>
    rw [trimLen]
    by_cases h : box l = (0, d)
    · rw [if_pos h]
      rcases ih with ⟨a, b⟩ | ⟨m, a, b, c, e, f⟩
      · exact Or.inl ⟨fun i hi => by by_cases hil : i = l; (subst hil; exact h); exact a i (by omega), b⟩
      · exact Or.inr ⟨m, a, b, by omega, e, fun i h1 h2 => by
          by_cases hil : i = l; (subst hil; exact h); exact f i h1 (by omega)⟩
    · rw [if_neg h]
      exact Or.inr ⟨l + 1, rfl, by omega, le_refl _, h, fun i h1 h2 => by omega⟩

/-! ### the table -/

theorem subBox_eq {d : Nat} {A B : CMat (ZMod q)} {f g h : Nat → Nat → ZMod q} (hA : A = CMat.mk' d d f)
    (hB : B = CMat.mk' d d g) {mr mc : Nat} (hin : ∀ r c, r < d → c < d → h r c = f r c - g r c)
    (hout : ∀ r c, r < d → c < d → ¬(r < mr ∧ mc ≤ c) → g r c = 0) : subBox A B mr mc = CMat.mk' d d h := by
  subst hA hB
  rw [subBox, CMat.mk']
  simp only [CMat.mk']
  congr 1
  funext r c
  by_cases hi : r < d ∧ c < d
  · rw [if_pos hi, if_pos hi, if_pos hi, hin r c hi.1 hi.2]
    by_cases hb : r < mr ∧ mc ≤ c
    · rw [if_pos ⟨hb.1, hb.2, hi.1, hi.2⟩]
    · rw [if_neg (fun h => hb ⟨h.1, h.2.1⟩), hout r c hi.1 hi.2 hb, sub_zero]
  · rw [if_neg (fun h => hi ⟨h.2.2.1, h.2.2.2⟩), if_neg hi, if_neg hi]

/-- After `l` passes: `Mfd[j] = Δ^min(j,l) M(a + j - min(j,l))`. -/
theorem fdTable_eq {d m a : Nat} {F : Nat → CMat (ZMod q)} {f : Nat → Nat → Nat → ZMod q}
    (hF : ∀ l, l < m → F l = CMat.mk' d d (fun r c => f r c (a + l))) :
    ∀ j, j < m → fdTable d m F j = CMat.mk' d d (fun r c => fdiff j (f r c) a) := by
  have hpass : ∀ (l c : Nat) (F : Nat → CMat (ZMod q)), 1 ≤ l → l + c ≤ m →
      (∀ j, j < l + c → F j = CMat.mk' d d (fun r c => fdiff (min j (l - 1)) (f r c) (a + j - min j (l - 1)))) →
      (∀ j, l + c ≤ j → j < m → F j = CMat.mk' d d (fun r c => fdiff (min j l) (f r c) (a + j - min j l))) →
      ∀ j, j < m → fdPass d l c F j = CMat.mk' d d (fun r c => fdiff (min j l) (f r c) (a + j - min j l)) := by
    intro l c
    induction c with
    | zero =>
      intro F hl hm h1 h2 j hj
      rw [fdPass]
      by_cases hjl : j < l
      · rw [h1 j (by omega), min_eq_left (by omega), min_eq_left (by omega)]
      · exact h2 j (by omega) hj
    | succ c ih =>
      intro F hl hm h1 h2 j hj
      rw [fdPass]
      refine ih _ hl (by omega) (fun i hi => ?_) (fun i hi1 hi2 => ?_) j hj
      · rw [if_neg (by omega)]; exact h1 i (by omega)
      · by_cases hil : i = l + c
        · subst hil
          rw [if_pos rfl]
          refine subBox_eq (h1 (l + c) (by omega)) (h1 (l + c - 1) (by omega)) (fun r c' _ _ => ?_)
            (fun r c' hr _ h => absurd ⟨hr, Nat.zero_le _⟩ h)
          obtain ⟨l, rfl⟩ : ∃ l', l = l' + 1 := ⟨l - 1, by omega⟩
          rw [min_eq_right (by omega), min_eq_right (by omega), min_eq_right (by omega), fdiff]
          congr 2 <;> omega
        · rw [if_neg hil]; exact h2 i (by omega) hi2
  intro j hj
  have hmain : ∀ l, l ≤ m - 1 → ∀ j, j < m → (List.range l).foldl (fun F i => fdPass d (i + 1) (m - 1 - i) F) F j
      = CMat.mk' d d (fun r c => fdiff (min j l) (f r c) (a + j - min j l)) := by
    intro l
    induction l with
    | zero => intro _ j hj; simpa [fdiff] using hF j hj
    | succ l ih =>
      intro hl j hj
      rw [List.range_succ, List.foldl_append, List.foldl_cons, List.foldl_nil]
      refine hpass (l + 1) (m - 1 - l) _ (by omega) (by omega) (fun j hj => ?_) (fun j h1 h2 => by omega) j hj
      exact ih (by omega) j (by omega)
  rw [fdTable, hmain (m - 1) (le_refl _) j hj, min_eq_left (by omega)]
  congr 1
  funext r c
  congr 1
  omega

/-- One update of the table: from `a + 1` to `a`. -/
theorem fdUpdate_eq {d m a : Nat} {g : Nat → Nat → Nat → ZMod q} {box : Nat → Nat × Nat}
    (hbox : ∀ j i r c, 1 ≤ j → j ≤ i → i < m → r < d → c < d → ¬(r < (box j).1 ∧ (box j).2 ≤ c) → g i r c = 0)
    {F : Nat → CMat (ZMod q)} (hF : ∀ j, j < m → F j =
      CMat.mk' d d (fun r c => fdiff j (fun y => ∑ i ∈ Finset.range m, (y : ZMod q) ^ i * g i r c) (a + 1))) :
    ∀ j, j < m → fdUpdate box (m - 1) F j =
      CMat.mk' d d (fun r c => fdiff j (fun y => ∑ i ∈ Finset.range m, (y : ZMod q) ^ i * g i r c) a) := by
  have key : ∀ (c : Nat) (F : Nat → CMat (ZMod q)), c ≤ m - 1 →
      (∀ j, j < c → F j =
        CMat.mk' d d (fun r c => fdiff j (fun y => ∑ i ∈ Finset.range m, (y : ZMod q) ^ i * g i r c) (a + 1))) →
      (∀ j, c ≤ j → j < m → F j =
        CMat.mk' d d (fun r c => fdiff j (fun y => ∑ i ∈ Finset.range m, (y : ZMod q) ^ i * g i r c) a)) →
      ∀ j, j < m → fdUpdate box c F j =
        CMat.mk' d d (fun r c => fdiff j (fun y => ∑ i ∈ Finset.range m, (y : ZMod q) ^ i * g i r c) a) := by
    intro c
    induction c with
    | zero => intro F _ _ h2 j hj; exact h2 j (Nat.zero_le _) hj
    | succ c ih =>
      intro F hc h1 h2 j hj
      rw [fdUpdate]
      refine ih _ (by omega) (fun i hi => ?_) (fun i hi1 hi2 => ?_) j hj
      · rw [if_neg (by omega)]; exact h1 i (by omega)
      · by_cases hic : i = c
        · subst hic
          rw [if_pos rfl]
          refine subBox_eq (h1 i (by omega)) (h2 (i + 1) (by omega) (by omega)) (fun r c' _ _ => ?_)
            (fun r c' hr hc' h => ?_)
          · rw [show ∀ f : Nat → ZMod q, fdiff (i + 1) f a = fdiff i f (a + 1) - fdiff i f a from fun _ => rfl]
            ring
          · rw [fdiff_poly]
            refine Finset.sum_eq_zero (fun l hl => ?_)
            split
            · rfl
            · rw [hbox (i + 1) l r c' (by omega) (by omega) (Finset.mem_range.1 hl) hr hc' h, mul_zero]
        · rw [if_neg hic]; exact h2 i (by omega) hi2
  intro j hj
  refine key (m - 1) F (le_refl _) (fun j hj => hF j (by omega)) (fun j h1 h2 => ?_) j hj
  obtain rfl : j = m - 1 := by omega
  rw [hF (m - 1) h2]
  refine CMat.mk'_congr (fun r c _ _ => ?_)
  rw [← sub_eq_zero, show ∀ f : Nat → ZMod q, fdiff (m - 1) f (a + 1) - fdiff (m - 1) f a = fdiff (m - 1 + 1) f a from fun _ => rfl,
    fdiff_poly]
  refine Finset.sum_eq_zero (fun l hl => ?_)
  rw [if_pos (by have := Finset.mem_range.1 hl; omega)]

/-! ### the products -/

/-- `M(y) H` for the polynomial with coefficients `g`. -/
def evalApply (d len : Nat) (g : Nat → Nat → Nat → ZMod q) (y : Nat) (H : CVec (ZMod q)) : CVec (ZMod q) :=
  CVec.mk' d (fun r => ∑ c ∈ Finset.range d, (∑ i ∈ Finset.range len, (y : ZMod q) ^ i * g i r c) * H.e c)

/-- `M(lo) M(lo+1) ... M(lo+k-1) H`. -/
def evalRun (d len : Nat) (g : Nat → Nat → Nat → ZMod q) (lo : Nat) : Nat → CVec (ZMod q) → CVec (ZMod q)
  | 0, H => H
  | k + 1, H => evalRun d len g lo k (evalApply d len g (lo + k) H)

theorem evalRun_len {d len : Nat} {g : Nat → Nat → Nat → ZMod q} {lo k : Nat} {H : CVec (ZMod q)} (hH : H.len = d) :
    (evalRun d len g lo k H).len = d := by
  induction k generalizing H with
  | zero => exact hH
  | succ k ih => rw [evalRun]; exact ih rfl

theorem evalRun_split {d len : Nat} {g : Nat → Nat → Nat → ZMod q} (a b : Nat) (H : CVec (ZMod q)) :
    evalRun d len g 0 (a + b) H = evalRun d len g 0 a (evalRun d len g a b H) := by
  induction b generalizing H with
  | zero => rfl
  | succ b ih => rw [← Nat.add_assoc, evalRun, ih, evalRun, Nat.zero_add]

/-- The recursion is the product of the matrices. -/
theorem evalRun_eq {d len : Nat} {g : Nat → Nat → Nat → ZMod q} {M : Nat → CMat (ZMod q)}
    (hM : ∀ i, i < len → ∀ r c, r < d → c < d → (M i).e r c = g i r c) (k : Nat) (H : CVec (ZMod q)) (r : Fin d) :
    (evalRun d len g 0 k H).e r = evalProd d len M k H.e r := by
  induction k generalizing H with
  | zero => simp [evalRun, evalProd]
  | succ k ih =>
    rw [evalRun, ih, evalProd, evalProd, List.range_succ, List.map_append, List.prod_append, List.map_cons, List.map_nil,
      List.prod_singleton, ← Matrix.mulVec_mulVec]
    congr 1
    congr 1
    funext i
    rw [evalApply, mk'_e_of_lt _ i.isLt, Nat.zero_add, Finset.sum_range, Matrix.mulVec, dotProduct]
    refine Finset.sum_congr rfl (fun c _ => ?_)
    congr 1
    rw [evalMat, Matrix.sum_apply]
    refine Finset.sum_congr rfl (fun l hl => ?_)
    rw [Matrix.smul_apply, smul_eq_mul, toMat, hM l (Finset.mem_range.1 hl) i c i.isLt c.isLt]

theorem mulVec_eval {d len : Nat} {g : Nat → Nat → Nat → ZMod q} {F : CMat (ZMod q)} {y : Nat}
    (hF : F = CMat.mk' d d (fun r c => ∑ i ∈ Finset.range len, (y : ZMod q) ^ i * g i r c)) {H : CVec (ZMod q)}
    (hH : H.len = d) : F.mulVec H = .ok (evalApply d len g y H) := by
  rw [hF, mulVec_eq (by rw [hH]; rfl), evalApply]
  congr 1
  refine CVec.mk'_congr (fun r hr => Finset.sum_congr rfl (fun c hc => ?_))
  rw [CMat.mk'_e _ (show r < d from hr) (Finset.mem_range.1 hc)]

theorem fdFirst_eq {d m a : Nat} {g : Nat → Nat → Nat → ZMod q} {F : Nat → CMat (ZMod q)} (t : Nat)
    (hF : ∀ l, l < t → F l = CMat.mk' d d (fun r c => ∑ i ∈ Finset.range m, ((a + l : Nat) : ZMod q) ^ i * g i r c)) :
    ∀ H : CVec (ZMod q), H.len = d → fdFirst F t H = .ok (evalRun d m g a t H) := by
  induction t with
  | zero => intro H _; rfl
  | succ t ih =>
    intro H hH
    rw [fdFirst, mulVec_eval (hF t (by omega)) hH, Res.bind_ok, ih (fun l hl => hF l (by omega)) _ rfl, evalRun]

theorem fdLoop_eq {d m : Nat} {g : Nat → Nat → Nat → ZMod q} (hm : 1 ≤ m) {box : Nat → Nat × Nat}
    (hbox : ∀ j i r c, 1 ≤ j → j ≤ i → i < m → r < d → c < d → ¬(r < (box j).1 ∧ (box j).2 ≤ c) → g i r c = 0) (a : Nat) :
    ∀ (F : Nat → CMat (ZMod q)), (∀ j, j < m → F j =
      CMat.mk' d d (fun r c => fdiff j (fun y => ∑ i ∈ Finset.range m, (y : ZMod q) ^ i * g i r c) a)) →
    ∀ H : CVec (ZMod q), H.len = d → ∃ F', fdLoop box m a F H = .ok (F', evalRun d m g 0 a H) ∧
      F' 0 = CMat.mk' d d (fun r c => ∑ i ∈ Finset.range m, ((0 : Nat) : ZMod q) ^ i * g i r c) := by
  induction a with
  | zero => intro F hF H _; exact ⟨F, rfl, hF 0 (by omega)⟩
  | succ a ih =>
    intro F hF H hH
    have hU := fdUpdate_eq hbox hF
    obtain ⟨F', e, h0⟩ := ih _ hU (evalApply d m g a H) rfl
    refine ⟨F', ?_, h0⟩
    rw [fdLoop, mulVec_eval (hU 0 (by omega)) hH, Res.bind_ok, e, evalRun, Nat.zero_add]

theorem eqv_mk' {d : Nat} {f g : Nat → Nat → ZMod q} (h : ∀ r c, r < d → c < d → f r c = g r c) :
    (CMat.mk' d d f).eqv (CMat.mk' d d g) = true := by
  rw [CMat.mk'_congr h, CMat.eqv]
  simp

/-- The finite differences, when the boxes are nested. -/
theorem fdMain_ok {d len k : Nat} {g : Nat → Nat → Nat → ZMod q} {M : Nat → CMat (ZMod q)}
    (hM : ∀ i, i < len → M i = CMat.mk' d d (g i)) (hk : len ≤ k)
    (hne : ∃ i, i < len ∧ ∃ r c, r < d ∧ c < d ∧ g i r c ≠ 0)
    (hbox : ∀ j i r c, 1 ≤ j → j ≤ i → i < len → r < d → c < d →
      ¬(r < (boxOf d (M j)).1 ∧ (boxOf d (M j)).2 ≤ c) → g i r c = 0)
    {H : CVec (ZMod q)} (hH : H.len = d) : fdMain d len k M H = .ok (evalRun d len g 0 k H) := by
  have hMe : ∀ i r c, i < len → r < d → c < d → (M i).e r c = g i r c := fun i r c hi hr hc => by
    rw [hM i hi, CMat.mk'_e _ hr hc]
  rcases trimLen_spec d (fun i => boxOf d (M i)) len with ⟨h0, -⟩ | ⟨m, em, m1, m2, -, mz⟩
  · obtain ⟨i, hi, r, c, hr, hc, hz⟩ := hne
    exact absurd (by rw [← hMe i r c hi hr hc]; exact boxOf_zero.1 (h0 i hi) r c hr hc) hz
  have hz : ∀ i r c, m ≤ i → i < len → r < d → c < d → g i r c = 0 := fun i r c h1 h2 hr hc => by
    rw [← hMe i r c h2 hr hc]; exact boxOf_zero.1 (mz i h1 h2) r c hr hc
  have hsum : ∀ (y : ZMod q) r c, r < d → c < d →
      ∑ i ∈ Finset.range len, y ^ i * g i r c = ∑ i ∈ Finset.range m, y ^ i * g i r c := by
    intro y r c hr hc
    symm
    refine Finset.sum_subset (Finset.range_mono m2) (fun i h1 h2 => ?_)
    rw [Finset.mem_range] at h1 h2
    rw [hz i r c (by omega) h1 hr hc, mul_zero]
  have happ : ∀ y H, evalApply d len g y H = evalApply d m g y H := by
    intro y H
    rw [evalApply, evalApply]
    refine CVec.mk'_congr (fun r hr => Finset.sum_congr rfl (fun c hc => ?_))
    rw [hsum _ r c hr (Finset.mem_range.1 hc)]
  have hrun : ∀ lo k H, evalRun d len g lo k H = evalRun d m g lo k H := by
    intro lo k
    induction k with
    | zero => intro H; rfl
    | succ k ih => intro H; rw [evalRun, evalRun, ih, happ]
  have hst : ∀ l, fdStart d m (k - m) M l =
      CMat.mk' d d (fun r c => ∑ i ∈ Finset.range m, ((k - m + l : Nat) : ZMod q) ^ i * g i r c) := by
    intro l
    rw [fdStart]
    refine CMat.mk'_congr (fun r c hr hc => ?_)
    rw [sumLoop_eq_sum]
    refine Finset.sum_congr rfl (fun i hi => ?_)
    rw [hMe i r c (by have := Finset.mem_range.1 hi; omega) hr hc]
  have hT := fdTable_eq (f := fun r c y => ∑ i ∈ Finset.range m, (y : ZMod q) ^ i * g i r c) (m := m) (fun l _ => hst l)
  obtain ⟨F', e1, e2⟩ := fdLoop_eq (box := fun i => boxOf d (M i)) m1
    (fun j i r c h1 h2 h3 => hbox j i r c h1 h2 (by omega)) (k - m) _ hT
    (evalRun d m g (k - m) m H) (evalRun_len hH)
  rw [fdMain]
  simp only
  rw [em, Res.bind_ok, fdFirst_eq m (fun l _ => hst l) H hH, Res.bind_ok, e1, Res.bind_ok]
  simp only
  rw [e2, hM 0 (by omega), eqv_mk', check_true, Res.bind_ok, ← evalRun_split, hrun, Nat.sub_add_cancel (by omega)]
  intro r c _ _
  rw [Finset.sum_eq_single 0]
  · simp
  · intro i _ hi; rw [Nat.cast_zero, zero_pow hi, zero_mul]
  · intro h; exact absurd (Finset.mem_range.2 (by omega)) h

/-! ### with the conversions from and to `fmpz` -/

theorem nmodMats_congr {d : Nat} {Ms Ms' : Nat → CMat Int} (len : Nat) (h : ∀ i, i < len → Ms i = Ms' i) :
    nmodMats q d Ms len = nmodMats q d Ms' len := by
  induction len with
  | zero => rfl
  | succ m ih => rw [nmodMats, nmodMats, ih (fun i hi => h i (by omega)), h m (by omega)]

theorem finiteDiff_congr {Ms Ms' : Nat → CMat Int} {len : Nat} (hl : 0 < len) (h : ∀ i, i < len → Ms i = Ms' i) (k : Int)
    (G : CVec Int) : finiteDiff q Ms len k G = finiteDiff q Ms' len k G := by
  rw [finiteDiff, finiteDiff, h 0 hl, nmodMats_congr len h]

theorem ndPolyStep_congr {R : Type} [CommRing R] (red : R → R) {n : Nat} {P P' : Nat → CMat R}
    (h : ∀ i, i < n + 2 → P i = P' i) (x : Nat) (G : CVec R) : ndPolyStep red n P x G = ndPolyStep red n P' x G := by
  have hf : ∀ (m : Nat) (G0 : CVec R), m ≤ n → forRange m G0 (fun i res => do
      let Gi ← (P (i + 1)).mulVec G
      if Gi.len = res.len then .ok (CVec.mk' res.len (fun r => res.e r + (x : R) ^ (i + 1) * Gi.e r))
      else .error .abort) = forRange m G0 (fun i res => do
      let Gi ← (P' (i + 1)).mulVec G
      if Gi.len = res.len then .ok (CVec.mk' res.len (fun r => res.e r + (x : R) ^ (i + 1) * Gi.e r))
      else .error .abort) := by
    intro m G0
    induction m with
    | zero => intro _; rfl
    | succ m ih => intro hm; rw [forRange, forRange, ih (by omega)]; simp only [h (m + 1) (by omega)]
  rw [ndPolyStep, ndPolyStep, h 0 (by omega), h (n + 1) (by omega)]
  simp only [hf n _ (le_refl n)]

theorem ndPolyLoop_poly_congr {R : Type} [CommRing R] (red : R → R) {n : Nat} {P P' : Nat → CMat R}
    (h : ∀ i, i < n + 2 → P i = P' i) (k : Nat) (G : CVec R) : ndPolyLoop red n P k G = ndPolyLoop red n P' k G := by
  induction k generalizing G with
  | zero => rfl
  | succ k ih =>
    rw [ndPolyLoop, ndPolyLoop, ndPolyStep_congr red h]
    cases ndPolyStep red n P' k G with
    | error e => rfl
    | ok H => exact ih H

theorem reduceVectorNDPolyFlint_congr {n : Nat} {P P' : Nat → CMat Int} (h : ∀ i, i < n + 2 → P i = P' i) (k : Int)
    (G : CVec Int) : reduceVectorNDPolyFlint q n P k G = reduceVectorNDPolyFlint q n P' k G := by
  rw [reduceVectorNDPolyFlint, reduceVectorNDPolyFlint, ndPolyLoop_poly_congr _ h, finiteDiff_congr (by omega) h,
    h 0 (by omega)]
  simp only [nmodMats_congr (n + 2) h]

theorem fromNmod_congr [NeZero q] {H : CVec (ZMod q)} : CongrVec (fromNmod H) H ∧ Reduced q (fromNmod H) := by
  refine ⟨⟨rfl, fun i hi => ?_⟩, fun i hi => ?_⟩
  · rw [fromNmod, mk'_e_of_lt _ hi]; simp
  · have hi' : i < H.len := hi
    rw [fromNmod, mk'_e_of_lt _ hi']
    have := ZMod.val_lt (H.e i)
    omega

/-- `finitediff_flint_nmod` for nested supports. -/
theorem finiteDiff_ok [NeZero q] {d len k : Nat} {g : Nat → Nat → Nat → Int} {Ms : Nat → CMat Int} (hl : 1 ≤ len)
    (hM : ∀ i, i < len → Ms i = CMat.mk' d d (g i))
    (hr : ∀ i, i < len → ∀ r c, r < d → c < d → 0 ≤ g i r c ∧ g i r c < q) (hk : len ≤ k) (hkq : k ≤ q)
    (hne : ∃ i, i < len ∧ ∃ r c, r < d ∧ c < d ∧ g i r c ≠ 0) (hnest : NestedSupport d len Ms)
    {G : CVec Int} (hG : G.len = d) (hGr : ∀ i, i < d → 0 ≤ G.e i ∧ G.e i < q) :
    finiteDiff q Ms len k G = .ok (fromNmod (evalRun d len (fun i r c => ((g i r c : Int) : ZMod q)) 0 k
      (CVec.mk' d (fun i => ((G.e i : Int) : ZMod q))))) := by
  have hMe : ∀ i r c, i < len → r < d → c < d → (Ms i).e r c = g i r c := fun i r c hi hr hc => by
    rw [hM i hi, CMat.mk'_e _ hr hc]
  have hcast : ∀ i r c, i < len → r < d → c < d → ((g i r c : Int) : ZMod q) = 0 → g i r c = 0 := by
    intro i r c hi hr' hc' h
    obtain ⟨h1, h2⟩ := hr i hi r c hr' hc'
    rw [ZMod.intCast_zmod_eq_zero_iff_dvd] at h
    exact Int.eq_zero_of_dvd_of_nonneg_of_lt h1 h2 h
  have hd : (Ms 0).cols = d := by rw [hM 0 (by omega)]; rfl
  have hconv := nmodMats_ok (q := q) (d := d) (Ms := Ms) len (fun i hi => ⟨by rw [hM i hi]; exact le_refl _,
    by rw [hM i hi]; exact le_refl _, fun r c h1 h2 => by rw [hMe i r c hi h1 h2]; exact hr i hi r c h1 h2⟩)
  have hmain := fdMain_ok (q := q) (d := d) (len := len) (k := k) (g := fun i r c => ((g i r c : Int) : ZMod q))
    (M := fun i => if i < len then CMat.mk' d d (fun r c => (((Ms i).e r c : Int) : ZMod q))
      else CMat.mk' d d (fun _ _ => 0)) (fun i hi => by
        rw [if_pos hi]
        exact CMat.mk'_congr (fun r c h1 h2 => by rw [hMe i r c hi h1 h2])) hk ?_ ?_
    (H := CVec.mk' d (fun i => ((G.e i : Int) : ZMod q))) rfl
  · rw [finiteDiff, hd, decide_eq_true (by omega), check_true, Res.bind_ok, nmodVec_ok (by omega) hGr, Res.bind_ok, hconv, Res.bind_ok,
      if_neg (by omega), Int.toNat_natCast, hmain, Res.bind_ok]
  · obtain ⟨i, hi, r, c, h1, h2, hz⟩ := hne
    exact ⟨i, hi, r, c, h1, h2, fun h => hz (hcast i r c hi h1 h2 h)⟩
  · intro j i r c hj hji hi h1 h2 hout
    by_contra hz
    have hz' : (Ms i).e r c ≠ 0 := by
      rw [hMe i r c hi h1 h2]
      intro h
      rw [h, Int.cast_zero] at hz
      exact hz rfl
    have hj' : j < len := by omega
    obtain ⟨⟨⟨r', hr'⟩, ⟨c', hc'⟩, hle, hnz⟩, ⟨r2, hr2⟩, ⟨c2, hc2⟩, hle2, hnz2⟩ := hnest i hi j hj' hj hji r h1 c h2 hz'
    have hbox := boxOf_spec d (if j < len then CMat.mk' d d (fun r c => (((Ms j).e r c : Int) : ZMod q))
      else CMat.mk' d d (fun _ _ => 0))
    have hent : ∀ r c, r < d → c < d → (Ms j).e r c ≠ 0 → (if j < len then CMat.mk' d d (fun r c => (((Ms j).e r c : Int) : ZMod q))
      else CMat.mk' d d (fun _ _ => 0)).e r c ≠ 0 := by
      intro r c h1 h2 h
      rw [if_pos hj', CMat.mk'_e _ h1 h2]
      intro h0
      rw [hMe j r c hj' h1 h2] at h h0
      exact h (hcast j r c hj' h1 h2 h0)
    simp only at hle hle2
    exact hout ⟨by have := (hbox.1 r' c' hr' hc' (hent _ _ hr' hc' hnz)).1; omega,
      by have := (hbox.1 r2 c2 hr2 hc2 (hent _ _ hr2 hc2 hnz2)).2; omega⟩

/-- All matrices zero: `max_row[-1]` is read. -/
theorem finiteDiff_zero {d len k : Nat} {Ms : Nat → CMat Int} [NeZero q] (hl : 1 ≤ len)
    (hM : ∀ i, i < len → Ms i = CMat.mk' d d (fun _ _ => 0)) (hk : len ≤ k)
    {G : CVec Int} (hG : G.len = d) (hGr : ∀ i, i < d → 0 ≤ G.e i ∧ G.e i < q) :
    finiteDiff q Ms len k G = .error .ub := by
  have hMe : ∀ i r c, i < len → (Ms i).e r c = 0 := fun i r c hi => by
    rw [hM i hi, CMat.mk']; simp
  have hq := NeZero.pos q
  have hd : (Ms 0).cols = d := by rw [hM 0 (by omega)]; rfl
  have hconv := nmodMats_ok (q := q) (d := d) (Ms := Ms) len (fun i hi => ⟨by rw [hM i hi]; exact le_refl _,
    by rw [hM i hi]; exact le_refl _, fun r c h1 h2 => by rw [hMe i r c hi]; omega⟩)
  rw [finiteDiff, hd, decide_eq_true (by omega), check_true, Res.bind_ok, nmodVec_ok (by omega) hGr, Res.bind_ok, hconv, Res.bind_ok]
  by_cases hkq : (q : Int) < k
  · rw [if_pos hkq]
  · rw [if_neg hkq, fdMain]
    simp only
    rcases trimLen_spec d (fun i => boxOf d (if i < len then CMat.mk' d d (fun r c => (((Ms i).e r c : Int) : ZMod q))
      else CMat.mk' d d (fun _ _ => 0))) len with ⟨-, e⟩ | ⟨m, -, m1, m2, m3, -⟩
    · rw [e]; rfl
    · refine absurd (boxOf_zero.2 (fun r c hr hc => ?_)) m3
      rw [if_pos (by omega), CMat.mk'_e _ hr hc, hMe _ _ _ (by omega), Int.cast_zero]

end

end Verif
