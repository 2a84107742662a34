import Verif.Model.Frob
import Verif.Lemmas.DeRhamMono
import Verif.Lemmas.Fpow

/-! How `tweak` acts along a reduction direction. -/

namespace Verif

open Spec

/-- `w` can be reduced once along `v`. -/
def StepOK (w v : IVec) : Prop := List.Forall₂ (fun x y => 0 ≤ y ∧ y ≤ x ∧ (x = y ∨ 0 < y)) w v

theorem tweak_step {w v : IVec} (h : StepOK w v) : ∀ (a b : Nat), a ≤ b →
    List.Forall₂ (fun s t => t ≤ s ∧ (t = 0 ∨ t < s)) (tweakNat w a)
      (tweakNat (List.zipWith (· - ·) w v) b) := by
  induction h with
  | nil =>
    intro a b _
    have : ∀ a, tweakNat [] a = [] := fun a => by
      have := tweakNat_length [] a
      exact List.length_eq_zero_iff.1 this
    rw [List.zipWith_nil_left, this, this]
    exact List.Forall₂.nil
  | @cons x y xs ys hxy hrest ih =>
    intro a b hab
    obtain ⟨h0, h1, h2⟩ := hxy
    have hy : 0 ≤ x := by omega
    rw [List.zipWith_cons_cons, tweakNat_cons _ _ hy, tweakNat_cons _ _ (by omega)]
    have hzero := ih 0 0 (le_refl _)
    split
    · split
      · refine List.Forall₂.cons ⟨by omega, by omega⟩ ?_
        exact hzero
      · refine List.Forall₂.cons ⟨by omega, by omega⟩ ?_
        exact ih 0 _ (Nat.zero_le _)
    · split
      · omega
      · refine List.Forall₂.cons ⟨by omega, by omega⟩ ?_
        exact ih _ _ (by omega)

/-- All of `r` comes off the first positive entry of `v`. -/
theorem tweak_shift {A v : IVec} (h : List.Forall₂ (fun x y => 0 ≤ x ∧ 0 ≤ y ∧ (y = 0 → x = 0)) A v) (r : Nat) :
    (∃ y ∈ v, 0 < y) → tweakNat (List.zipWith (· + ·) A (mulVec r v)) r =
      List.zipWith (· + ·) A (tweakNat (mulVec r v) r) := by
  induction h with
  | nil => rintro ⟨y, hy, -⟩; cases hy
  | @cons x y xs ys hxy hrest ih =>
    obtain ⟨h0, h1, h2⟩ := hxy
    intro hex
    have hry : (0 : Int) ≤ r * y := by positivity
    have e1 : mulVec (r : Int) (y :: ys) = (r * y) :: mulVec (r : Int) ys := rfl
    rw [e1, List.zipWith_cons_cons, tweakNat_cons _ _ (by omega), tweakNat_cons _ _ hry]
    rcases Int.lt_or_eq_of_le h1 with hy | hy
    · have hle : (r : Int) ≤ r * y := by nlinarith
      rw [if_pos (by omega), if_pos hle, List.zipWith_cons_cons]
      congr 1; ring
    · have hx := h2 hy.symm
      subst hx
      rw [← hy, mul_zero, add_zero]
      have hex' : ∃ z ∈ ys, 0 < z := by
        obtain ⟨z, hz, hz0⟩ := hex
        rcases List.mem_cons.1 hz with rfl | hz
        · omega
        · exact ⟨z, hz, hz0⟩
      rcases Nat.eq_zero_or_pos r with rfl | hr
      · simp [tweakNat]
      · rw [if_neg (by omega), if_neg (by omega), List.zipWith_cons_cons]
        have := ih hex'
        simp only [Int.toNat_zero, Nat.sub_zero] at this ⊢
        rw [this]; simp

/-- `p u - i v` -/
def axmy (p i : Nat) (u v : IVec) : IVec := List.zipWith (· - ·) (mulVec p u) (mulVec i v)

theorem axmy_cons (p i : Nat) (x y : Int) (u v : IVec) :
    axmy p i (x :: u) (y :: v) = (p * x - i * y) :: axmy p i u v := rfl

theorem axmy_nil (p i : Nat) : axmy p i [] [] = [] := rfl

theorem mulVec_length (k : Int) (v : IVec) : (mulVec k v).length = v.length := by simp [mulVec]

theorem axmy_length {u v : IVec} (h : v.length = u.length) (p i : Nat) : (axmy p i u v).length = u.length := by
  rw [axmy, List.length_zipWith, mulVec_length, mulVec_length, h, min_self]

theorem axmy_sum {u v : IVec} (h : v.length = u.length) (p i : Nat) :
    (axmy p i u v).sum = p * u.sum - i * v.sum := by
  induction u generalizing v with
  | nil => rw [List.length_eq_zero_iff.1 h]; simp [axmy_nil]
  | cons x u ih =>
    obtain ⟨y, v, rfl⟩ := List.exists_cons_of_length_eq_add_one h
    rw [axmy_cons, List.sum_cons, ih (by simpa using h), List.sum_cons, List.sum_cons]; ring

theorem axmy_step {u v : IVec} (h : Below u v) {p i : Nat} (hi : i < p) :
    StepOK (axmy p i u v) v := by
  induction h with
  | nil => exact List.Forall₂.nil
  | @cons x y xs ys hxy _ ih =>
    obtain ⟨h0, h1, h2⟩ := hxy
    rw [axmy_cons]
    refine List.Forall₂.cons ⟨h0, ?_, ?_⟩ ih
    · have : (i : Int) + 1 ≤ p := by omega
      nlinarith
    · rcases Int.lt_or_eq_of_le h0 with hy | hy
      · exact Or.inr hy
      · left
        have : x ≤ 0 := by by_contra h; exact absurd (h2.1 (by omega)) (by omega)
        have hx : x = 0 := by omega
        rw [hx, ← hy]; simp

theorem axmy_succ {u v : IVec} (h : Below u v) (p i : Nat) :
    List.zipWith (· - ·) (axmy p i u v) v = axmy p (i + 1) u v := by
  induction h with
  | nil => rfl
  | @cons x y xs ys _ _ ih =>
    rw [axmy_cons, axmy_cons, List.zipWith_cons_cons, ih]
    congr 1; push_cast; ring

theorem axmy_nonneg {u v : IVec} (h : Below u v) {p i : Nat} (hi : i ≤ p) : NonNeg (axmy p i u v) := by
  induction h with
  | nil => intro x hx; simp [axmy_nil] at hx
  | @cons x y xs ys hxy _ ih =>
    intro z hz
    rw [axmy_cons] at hz
    rcases List.mem_cons.1 hz with rfl | hz
    · obtain ⟨h0, h1, _⟩ := hxy
      have : (i : Int) ≤ p := by omega
      nlinarith
    · exact ih z hz

theorem tweakAt_eq {u v : IVec} (h : v.length = u.length) (p r i : Nat) :
    tweakAt p r u v i = .ok (tweakNat (axmy p i u v) r) := by
  rw [tweakAt, subVec_ok (by rw [mulVec_length, mulVec_length, h]), Res.bind_ok, tweak, if_neg (by omega),
    Int.toNat_natCast, axmy]

/-- One step of the loop: the destination and the direction meet the preconditions. -/
theorem tweakAt_step {n d p r i : Nat} {u v : IVec} (hu : u.length = n + 1) (hb : Below u v)
    (hs : v.sum = d) (hi : i < p) (hr : (r : Int) ≤ (axmy p (i + 1) u v).sum) :
    ∃ y, subVec (tweakNat (axmy p i u v) r) (tweakNat (axmy p (i + 1) u v) r) = .ok y ∧
      (tweakNat (axmy p (i + 1) u v) r).length = n + 1 ∧ NonNeg (tweakNat (axmy p (i + 1) u v) r) ∧
      IsTuple (n + 1) d y ∧
      (∀ k, ev n (tweakNat (axmy p (i + 1) u v) r) k = 0 ∨ 0 < ev n y k) ∧
      ev n (tweakNat (axmy p (i + 1) u v) r) + ev n y = ev n (tweakNat (axmy p i u v) r) ∧
      (tweakNat (axmy p (i + 1) u v) r).sum = p * u.sum - (i + 1) * d - r := by
  have hl : ∀ i, (axmy p i u v).length = n + 1 := fun i => by rw [axmy_length hb.length, hu]
  have hl1 : (tweakNat (axmy p i u v) r).length = n + 1 := by rw [tweakNat_length, hl]
  have hl2 : (tweakNat (axmy p (i + 1) u v) r).length = n + 1 := by rw [tweakNat_length, hl]
  have hn1 := axmy_nonneg hb (show i ≤ p by omega)
  have hn2 := axmy_nonneg hb (show i + 1 ≤ p by omega)
  obtain ⟨a1, _, a3⟩ := tweakNat_props _ r hn1
  obtain ⟨b1, _, b3⟩ := tweakNat_props _ r hn2
  have s1 := axmy_sum hb.length p i
  have s2 := axmy_sum hb.length p (i + 1)
  have hdl : (axmy p i u v).sum = (axmy p (i + 1) u v).sum + d := by
    rw [s1, s2, hs]; push_cast; ring
  rw [min_eq_left (by omega)] at a3 b3
  have hst := tweak_step (axmy_step hb hi) r r (le_refl _)
  rw [axmy_succ hb] at hst
  have hget : ∀ k : Nat, (tweakNat (axmy p (i + 1) u v) r).getD k 0 ≤ (tweakNat (axmy p i u v) r).getD k 0 ∧
      ((tweakNat (axmy p (i + 1) u v) r).getD k 0 = 0 ∨
        (tweakNat (axmy p (i + 1) u v) r).getD k 0 < (tweakNat (axmy p i u v) r).getD k 0) := by
    have : ∀ {s t : IVec}, List.Forall₂ (fun s t => t ≤ s ∧ (t = 0 ∨ t < s)) s t → ∀ k,
        t.getD k 0 ≤ s.getD k 0 ∧ (t.getD k 0 = 0 ∨ t.getD k 0 < s.getD k 0) := by
      intro s t h
      induction h with
      | nil => intro k; simp
      | cons h _ ih =>
        intro k
        cases k with
        | zero => simpa using h
        | succ k => simpa using ih k
    exact this hst
  have hev := ev_sub (n := n) (show (tweakNat (axmy p i u v) r).length = (tweakNat (axmy p (i + 1) u v) r).length by omega)
  have hyl : (List.zipWith (· - ·) (tweakNat (axmy p i u v) r) (tweakNat (axmy p (i + 1) u v) r)).length = n + 1 := by
    rw [List.length_zipWith, hl1, hl2, min_self]
  refine ⟨_, subVec_ok (by omega), hl2, b1, tuple_of_ev hyl (fun k => ?_) ?_, fun k => ?_, ?_, ?_⟩
  · rw [hev]
    have := (hget k).1
    simp only [Pi.sub_apply, ev]; omega
  · rw [hev, Finset.sum_congr rfl (fun i _ => Pi.sub_apply _ _ i), Finset.sum_sub_distrib, sum_ev hl1, sum_ev hl2,
      a3, b3, hdl]; ring
  · rw [hev]
    have := (hget k).2
    simp only [Pi.sub_apply, ev]; omega
  · rw [hev]; funext k; simp
  · rw [b3, s2, hs]; push_cast; ring

end Verif
