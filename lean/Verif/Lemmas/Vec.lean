import Verif.Model.Vec
import Verif.Spec.Vec

namespace Verif

open Spec

theorem ltLoop_eq_true_iff : ∀ (a b : IVec), a.length = b.length →
    (ltLoop a b = .ok true ↔ LexLt a b)
  | [], [], _ => by simp [ltLoop, LexLt]
  | [], _ :: _, h => by simp at h
  | _ :: _, [], h => by simp at h
  | [a], [b], _ => by
      constructor
      · intro h
        refine ⟨0, by simp, by simp, by simp, ?_⟩
        simpa [ltLoop] using h
      · rintro ⟨k, ha, hb, _, hlt⟩
        have : k = 0 := by simp at ha; exact ha
        subst this
        simpa [ltLoop] using hlt
  | a :: a' :: as, [b], h => by simp at h
  | [a], b :: b' :: bs, h => by simp at h
  | a :: a' :: as, b :: b' :: bs, h => by
      have ih := ltLoop_eq_true_iff (a' :: as) (b' :: bs) (by simpa using h)
      rw [ltLoop]
      · by_cases h1 : a > b
        · simp only [h1, if_true]
          constructor
          · intro h; simp at h
          · rintro ⟨k, ha, hb, heq, hlt⟩
            cases k with
            | zero => simp at hlt; omega
            | succ k =>
              have := heq 0 (by omega)
              simp at this; omega
        · by_cases h2 : a < b
          · simp only [h1, h2, if_true, if_false]
            simp only [true_iff]
            exact ⟨0, by simp, by simp, by simp, by simpa using h2⟩
          · have hab : a = b := by omega
            simp only [h1, h2, if_false, ih]
            constructor
            · rintro ⟨k, ha, hb, heq, hlt⟩
              refine ⟨k + 1, by simpa using ha, by simpa using hb, ?_, by simpa using hlt⟩
              intro i hi
              cases i with
              | zero => simpa using hab
              | succ i => simpa using heq i (by omega)
            · rintro ⟨k, ha, hb, heq, hlt⟩
              cases k with
              | zero => simp at hlt; omega
              | succ k =>
                refine ⟨k, by simpa using ha, by simpa using hb, ?_, by simpa using hlt⟩
                intro i hi
                simpa using heq (i + 1) (by omega)
      · simp

theorem ltLoop_isOk : ∀ (a b : IVec), a.length = b.length → a ≠ [] → ∃ r, ltLoop a b = .ok r
  | [], _, _, h => by simp at h
  | _ :: _, [], h, _ => by simp at h
  | [a], [b], _, _ => ⟨_, rfl⟩
  | a :: a' :: as, [b], h, _ => by simp at h
  | [a], b :: b' :: bs, h, _ => by simp at h
  | a :: a' :: as, b :: b' :: bs, h, _ => by
      obtain ⟨r, hr⟩ := ltLoop_isOk (a' :: as) (b' :: bs) (by simpa using h) (by simp)
      rw [ltLoop]
      · split
        · exact ⟨_, rfl⟩
        · split
          · exact ⟨_, rfl⟩
          · exact ⟨r, hr⟩
      · simp

theorem Spec.LexLt.irrefl (a : IVec) : ¬ LexLt a a := by
  rintro ⟨k, ha, hb, _, h⟩; omega

theorem Spec.LexLt.trans {a b c : IVec} (h1 : LexLt a b) (h2 : LexLt b c) : LexLt a c := by
  obtain ⟨k, ha, hb, he, hl⟩ := h1
  obtain ⟨k', hb', hc', he', hl'⟩ := h2
  by_cases hkk : k < k'
  · refine ⟨k, ha, by omega, ?_, ?_⟩
    · intro i hi
      rw [he i hi, he' i (by omega)]
    · rw [← he' k hkk]; exact hl
  · by_cases hkk2 : k = k'
    · subst hkk2
      refine ⟨k, ha, hc', ?_, by omega⟩
      intro i hi
      rw [he i hi, he' i hi]
    · refine ⟨k', by omega, hc', ?_, ?_⟩
      · intro i hi
        rw [he i (by omega), he' i hi]
      · rw [he k' (by omega)]; exact hl'

theorem Spec.LexLt.trichotomy : ∀ (a b : IVec), a.length = b.length → LexLt a b ∨ a = b ∨ LexLt b a
  | [], [], _ => by simp
  | [], _ :: _, h => by simp at h
  | _ :: _, [], h => by simp at h
  | a :: as, b :: bs, h => by
      by_cases h1 : a < b
      · exact Or.inl ⟨0, by simp, by simp, by simp, by simpa using h1⟩
      · by_cases h2 : b < a
        · exact Or.inr (Or.inr ⟨0, by simp, by simp, by simp, by simpa using h2⟩)
        · have hab : a = b := by omega
          subst hab
          rcases LexLt.trichotomy as bs (by simpa using h) with h | h | h
          · left
            obtain ⟨k, ha, hb, he, hl⟩ := h
            refine ⟨k + 1, by simpa using ha, by simpa using hb, ?_, by simpa using hl⟩
            intro i hi
            cases i with
            | zero => simp
            | succ i => simpa using he i (by omega)
          · right; left; rw [h]
          · right; right
            obtain ⟨k, ha, hb, he, hl⟩ := h
            refine ⟨k + 1, by simpa using ha, by simpa using hb, ?_, by simpa using hl⟩
            intro i hi
            cases i with
            | zero => simp
            | succ i => simpa using he i (by omega)

theorem sumVec_eq_sum (v : IVec) : sumVec v = v.sum := by
  unfold sumVec
  have : ∀ (v : IVec) (a : Int), v.foldl (· + ·) a = a + v.sum := by
    intro v
    induction v with
    | nil => simp
    | cons x xs ih => intro a; simp [ih]; omega
  simpa using this v 0

@[simp] theorem tweakStep_length : ∀ v : IVec, (tweakStep v).length = v.length
  | [] => rfl
  | x :: xs => by
      unfold tweakStep; split <;> simp [tweakStep_length xs]

@[simp] theorem tweakNat_length (v : IVec) (r : Nat) : (tweakNat v r).length = v.length := by
  induction r generalizing v with
  | zero => rfl
  | succ r ih => simp [tweakNat, ih]

theorem tweakNat_add (v : IVec) (a b : Nat) :
    tweakNat v (a + b) = tweakNat (tweakNat v a) b := by
  induction a generalizing v with
  | zero => simp [tweakNat]
  | succ a ih => rw [Nat.succ_add]; simp [tweakNat, ih]

theorem tweakStep_nonneg : ∀ v : IVec, NonNeg v → NonNeg (tweakStep v)
  | [], h => by simpa [tweakStep] using h
  | x :: xs, h => by
      have hx : 0 ≤ x := h x (by simp)
      have hxs : NonNeg xs := fun y hy => h y (by simp [hy])
      unfold tweakStep
      split
      · intro y hy
        rcases List.mem_cons.1 hy with rfl | hy
        · omega
        · exact hxs y hy
      · intro y hy
        rcases List.mem_cons.1 hy with rfl | hy
        · exact hx
        · exact tweakStep_nonneg xs hxs y hy

theorem nonneg_sum_nonneg : ∀ v : IVec, NonNeg v → 0 ≤ v.sum
  | [], _ => by simp
  | x :: xs, h => by
      have hx : 0 ≤ x := h x (by simp)
      have := nonneg_sum_nonneg xs (fun y hy => h y (by simp [hy]))
      simp; omega

theorem tweakStep_sum : ∀ v : IVec, NonNeg v → (tweakStep v).sum = v.sum - min 1 v.sum
  | [], _ => by simp [tweakStep]; omega
  | x :: xs, h => by
      have hx : 0 ≤ x := h x (by simp)
      have hxs : NonNeg xs := fun y hy => h y (by simp [hy])
      have hs := nonneg_sum_nonneg xs hxs
      have ih := tweakStep_sum xs hxs
      unfold tweakStep
      split
      · simp; omega
      · have : x = 0 := by omega
        subst this
        simp; omega

theorem tweakStep_le : ∀ v : IVec, Spec.LE (tweakStep v) v
  | [] => by simp [tweakStep, Spec.LE]
  | x :: xs => by
      have ih := tweakStep_le xs
      refine ⟨by simp, ?_⟩
      intro i hi hi'
      unfold tweakStep
      cases i with
      | zero => split <;> simp; omega
      | succ i =>
        split
        · simp
        · simpa using ih.2 i (by simpa using hi) (by simpa using hi')

theorem Spec.LE.trans {a b c : IVec} (h1 : Spec.LE a b) (h2 : Spec.LE b c) : Spec.LE a c := by
  refine ⟨h1.1.trans h2.1, ?_⟩
  intro i ha hc
  have hb : i < b.length := by rw [← h1.1]; exact ha
  exact Int.le_trans (h1.2 i ha hb) (h2.2 i hb hc)

theorem Spec.LE.refl (a : IVec) : Spec.LE a a := ⟨rfl, fun _ _ _ => Int.le_refl _⟩

theorem tweakNat_cons (x : Int) (xs : IVec) (hx : 0 ≤ x) (r : Nat) :
    tweakNat (x :: xs) r =
      if (r : Int) ≤ x then (x - r) :: xs else 0 :: tweakNat xs (r - x.toNat) := by
  induction r generalizing x xs with
  | zero => simp [tweakNat, hx]
  | succ r ih =>
    rw [tweakNat]
    by_cases h0 : 0 < x
    · have : tweakStep (x :: xs) = (x - 1) :: xs := by simp [tweakStep, h0]
      rw [this, ih _ _ (by omega)]
      by_cases h : (r : Int) + 1 ≤ x
      · rw [if_pos (by omega), if_pos (by push_cast; omega)]
        congr 1; push_cast; omega
      · rw [if_neg (by omega), if_neg (by push_cast; omega)]
        congr 2; omega
    · have hx0 : x = 0 := by omega
      subst hx0
      have : tweakStep (0 :: xs) = 0 :: tweakStep xs := by simp [tweakStep]
      have h1 : ¬ ((r + 1 : Nat) : Int) ≤ 0 := by omega
      rw [this, ih _ _ (by omega), if_neg h1]
      by_cases h : (r : Int) ≤ 0
      · have : r = 0 := by omega
        subst this
        simp [tweakNat]
      · rw [if_neg h]
        simp only [Int.toNat_zero, Nat.sub_zero]
        rw [tweakNat]

theorem tweakNat_shape : ∀ (u : IVec) (r : Nat), NonNeg u → LowestFirst (tweakNat u r) u
  | [], r, _ => by
      refine ⟨0, ?_, ?_⟩
      · intro i h; simp at h
      · intro i h; simp at h
  | x :: xs, r, h => by
      have hx : 0 ≤ x := h x (by simp)
      rw [tweakNat_cons x xs hx]
      split
      · refine ⟨0, by intros; omega, ?_⟩
        intro i h h' hi
        cases i with
        | zero => omega
        | succ i => simp
      · obtain ⟨j, h1, h2⟩ := tweakNat_shape xs (r - x.toNat) (fun y hy => h y (by simp [hy]))
        refine ⟨j + 1, ?_, ?_⟩
        · intro i hi hij
          cases i with
          | zero => simp
          | succ i => simpa using h1 i (by simpa using hi) (by omega)
        · intro i hi hi' hij
          cases i with
          | zero => omega
          | succ i => simpa using h2 i (by simpa using hi) (by simpa using hi') (by omega)

theorem tweakNat_props (u : IVec) (r : Nat) (h : NonNeg u) :
    NonNeg (tweakNat u r) ∧ Spec.LE (tweakNat u r) u ∧
      (tweakNat u r).sum = u.sum - min (r : Int) u.sum := by
  induction r generalizing u with
  | zero =>
    have := nonneg_sum_nonneg u h
    exact ⟨h, Spec.LE.refl u, by simp [tweakNat]; omega⟩
  | succ r ih =>
    have h' := tweakStep_nonneg u h
    obtain ⟨h1, h2, h3⟩ := ih (tweakStep u) h'
    have hs := nonneg_sum_nonneg u h
    refine ⟨h1, h2.trans (tweakStep_le u), ?_⟩
    simp only [tweakNat, h3, tweakStep_sum u h]
    push_cast
    omega

end Verif
