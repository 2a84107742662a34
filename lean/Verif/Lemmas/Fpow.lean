import Verif.Model.Frob
import Verif.Lemmas.Poly
import Verif.Lemmas.DeRham

/-! The table of powers of `f`. -/

namespace Verif

open Spec MvPolynomial

theorem foldlM_inv {α σ : Type} {f : σ → α → Res σ} (P : σ → Prop) {l : List α}
    (h : ∀ s x s', x ∈ l → P s → f s x = .ok s' → P s') : ∀ {s r : σ}, P s → l.foldlM f s = .ok r → P r := by
  induction l with
  | nil => intro s r h0 e; cases e; exact h0
  | cons x l ih =>
    intro s r h0 e
    rw [List.foldlM_cons, Res.bind_eq_ok] at e
    obtain ⟨s', e1, e2⟩ := e
    exact ih (fun s y s' hy => h s y s' (List.mem_cons_of_mem _ hy)) (h s x s' (List.mem_cons_self ..) h0 e1) e2

theorem addVec_comm (u v : IVec) : addVec u v = addVec v u := by
  unfold addVec
  by_cases h : u.length = v.length
  · rw [decide_eq_true h, decide_eq_true h.symm, List.zipWith_comm]
    simp only [Int.add_comm]
  · rw [decide_eq_false h, decide_eq_false (Ne.symm h)]; rfl

theorem addVec_ok {a b : IVec} (h : a.length = b.length) : addVec a b = .ok (List.zipWith (· + ·) a b) := by
  rw [addVec, decide_eq_true h, check_true]; rfl

variable {R : Type} [CommRing R]

theorem mulPoly_eq (A f : MonMap R) : mulPoly A f = mulMaps A f := by
  unfold mulPoly mulMaps
  simp only [fun (a b : IVec × R) => addVec_comm a.1 b.1, fun (a b : IVec × R) => mul_comm a.2 b.2]

theorem sum_zipWith_add : ∀ {a b : IVec}, a.length = b.length → (List.zipWith (· + ·) a b).sum = a.sum + b.sum
  | [], [], _ => rfl
  | x :: a, y :: b, h => by
      simp only [List.zipWith_cons_cons, List.sum_cons]
      rw [sum_zipWith_add (by simpa using h)]; ring

/-- The degrees of the terms of a product. -/
theorem mulMaps_deg {A f r : MonMap R} {a b : Int} (hA : ∀ e ∈ A, deg e.1 = a) (hf : ∀ e ∈ f, deg e.1 = b)
    (h : mulMaps A f = .ok r) : ∀ e ∈ r, deg e.1 = a + b := by
  refine foldlM_inv (P := fun Y : MonMap R => ∀ e ∈ Y, deg e.1 = a + b) ?_ (by simp) h
  intro Y x Y' hx hY e
  refine foldlM_inv (P := fun Y : MonMap R => ∀ e ∈ Y, deg e.1 = a + b) ?_ hY e
  intro Z y Z' hy hZ e2
  rw [Res.bind_eq_ok] at e2
  obtain ⟨u, e3, e4⟩ := e2
  cases e4
  unfold addVec at e3
  rw [Res.bind_eq_ok] at e3
  obtain ⟨_, hc, e5⟩ := e3
  have hl : y.1.length = x.1.length := of_decide_eq_true (check_eq_ok.1 hc)
  cases e5
  intro e he
  have : ∀ c : R, e ∈ MonMap.set Z (List.zipWith (· + ·) y.1 x.1) c → deg e.1 = a + b := by
    intro c hm
    rcases mem_set hm with rfl | hm
    · show (List.zipWith (· + ·) y.1 x.1).sum = _
      rw [sum_zipWith_add hl, add_comm]
      exact congrArg₂ (· + ·) (hA x hx) (hf y hy)
    · exact hZ e hm
  unfold MonMap.accum at he
  split at he
  · exact this _ he
  · exact this _ he

/-- The entries of the table are the powers of `f`. -/
structure TableOK (n d : Nat) (f : MonMap R) (T : List (MonMap R)) : Prop where
  pos : 0 < T.length
  entry : ∀ (k : Nat) (P : MonMap R), T[k]? = some P → WFPoly (n + 1) P ∧ toPoly (n + 1) P = toPoly (n + 1) f ^ k ∧
    ∀ e ∈ P, deg e.1 = (k : Int) * d

theorem tableOK_start (n d : Nat) (f : MonMap R) : TableOK n d f (fpowStart n) where
  pos := by simp [fpowStart]
  entry := by
    intro k P h
    rcases k with _ | k
    · simp only [fpowStart, List.getElem?_cons_zero, Option.some.injEq] at h
      subst h
      refine ⟨⟨?_, ?_⟩, ?_, ?_⟩
      · intro e he
        simp only [List.mem_singleton] at he
        subst he
        exact ⟨by simp, nonNeg_replicate _⟩
      · simp
      · rw [toPoly_cons, toPoly_nil, expo_zero, pow_zero, add_zero]
        rfl
      · intro e he
        simp only [List.mem_singleton] at he
        subst he
        simp [deg]
    · simp [fpowStart] at h

theorem fpowLoop_ok {n d : Nat} {f : MonMap R} (hf : WFPoly (n + 1) f) (hd : ∀ e ∈ f, deg e.1 = d) (cnt : Nat) :
    ∀ T : List (MonMap R), TableOK n d f T →
      ∃ S, fpowLoop f cnt T = .ok (T ++ S) ∧ S.length = cnt ∧ TableOK n d f (T ++ S) := by
  induction cnt with
  | zero => intro T hT; exact ⟨[], by rw [fpowLoop, List.append_nil], rfl, by rw [List.append_nil]; exact hT⟩
  | succ cnt ih =>
    intro T hT
    have hpos := hT.pos
    have hl : T.getLast? = some T[T.length - 1] := by
      rw [List.getLast?_eq_getElem?, List.getElem?_eq_getElem (by omega)]
    obtain ⟨h1, h2, h3⟩ := hT.entry (T.length - 1) _ (List.getElem?_eq_getElem (by omega))
    obtain ⟨Y, e, w, q⟩ := mulMaps_ok (by omega) h1 hf
    have hT' : TableOK n d f (T ++ [Y]) := by
      refine ⟨by simp, fun k P hP => ?_⟩
      rw [List.getElem?_append] at hP
      split at hP
      · exact hT.entry k P hP
      · have hk : k = T.length := by
          by_contra hne
          rw [List.getElem?_eq_none (by simp; omega)] at hP
          cases hP
        subst hk
        simp only [Nat.sub_self, List.getElem?_cons_zero, Option.some.injEq] at hP
        subst hP
        obtain ⟨j, hj⟩ : ∃ j, T.length = j + 1 := ⟨T.length - 1, by omega⟩
        have hj' : T.length - 1 = j := by omega
        refine ⟨w, ?_, ?_⟩
        · rw [q, h2, hj', hj, pow_succ]
        · intro x hx
          rw [mulMaps_deg h3 hd e x hx, hj', hj]; push_cast; ring
    obtain ⟨S, e1, l1, t1⟩ := ih _ hT'
    refine ⟨Y :: S, ?_, by simp [l1], ?_⟩
    · rw [fpowLoop, hl]
      simp only
      rw [mulPoly_eq, e, Res.bind_ok, e1, List.append_assoc]; rfl
    · rw [List.append_assoc] at t1; exact t1

theorem computeFpow_ok {n d : Nat} {f : MonMap R} (hf : WFPoly (n + 1) f) (hd : ∀ e ∈ f, deg e.1 = d)
    {T : List (MonMap R)} (hT : TableOK n d f T) (power : Int) :
    ∃ S, computeFpow f T power = .ok (T ++ S) ∧ TableOK n d f (T ++ S) ∧ power < (T ++ S).length ∧
      ((T ++ S).length : Int) = max (T.length : Int) (power + 1) := by
  unfold computeFpow
  by_cases h : (T.length : Int) ≤ power
  · rw [if_pos h]
    obtain ⟨S, e, l, t⟩ := fpowLoop_ok hf hd (power + 1 - T.length).toNat T hT
    have hl : ((T ++ S).length : Int) = power + 1 := by rw [List.length_append, l]; omega
    refine ⟨S, ?_, t, by omega, by rw [hl]; omega⟩
    rw [e, Res.bind_ok, decide_eq_true hl, check_true]; rfl
  · rw [if_neg h]
    refine ⟨[], by rw [List.append_nil], by rw [List.append_nil]; exact hT, ?_, ?_⟩
    · rw [List.append_nil]; omega
    · rw [List.append_nil]; omega

end Verif
