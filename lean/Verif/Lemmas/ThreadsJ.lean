import Verif.Lemmas.Threads

/-!
The loop over the columns of `compute_reduction_matrix_J`: the iterations touch different columns.
-/

namespace Verif

open Spec

section

variable {R : Type} [CommRing R]

/-- The iteration a step belongs to. -/
def StepJ.it : StepJ R → Nat
  | .load it _ => it
  | .store it _ => it

/-- Column `c` of the matrices, and the value read by iteration `c`. -/
def MachJ.slice (s : MachJ R) (c : Nat) : (Nat → Nat → R) × R := (fun a b => s.M a b c, s.reg c)

/-- A step on its own column. -/
def StepJ.execS : StepJ R → (Nat → Nat → R) × R → (Nat → Nat → R) × R
  | .load _ u, s => (s.1, s.1 u.m u.row)
  | .store _ u, s => (fun a b => if a = u.m ∧ b = u.row then s.2 + u.x else s.1 a b, s.2)

theorem exec_own {a : StepJ R} (h : a.loc.2.2 = a.it) (s : MachJ R) :
    (a.exec s).slice a.it = a.execS (s.slice a.it) := by
  cases a with
  | load it u =>
    simp only [StepJ.loc, StepJ.it] at h
    subst h
    simp [StepJ.exec, MachJ.slice, StepJ.execS, StepJ.it]
  | store it u =>
    simp only [StepJ.loc, StepJ.it] at h
    subst h
    simp [StepJ.exec, MachJ.slice, StepJ.execS, StepJ.it]

theorem exec_other {a : StepJ R} (h : a.loc.2.2 = a.it) (s : MachJ R) {c : Nat} (hc : a.it ≠ c) :
    (a.exec s).slice c = s.slice c := by
  cases a with
  | load it u =>
    simp only [StepJ.it] at hc
    simp [StepJ.exec, MachJ.slice, Ne.symm hc]
  | store it u =>
    simp only [StepJ.loc, StepJ.it] at h hc
    have : c ≠ u.col := by rw [h]; exact Ne.symm hc
    simp [StepJ.exec, MachJ.slice, this]

theorem foldl_slice (c : Nat) : ∀ (order : List (StepJ R)) (s : MachJ R), (∀ a ∈ order, a.loc.2.2 = a.it) →
    (order.foldl (fun s a => a.exec s) s).slice c =
      (order.filter (fun a => decide (a.it = c))).foldl (fun s a => a.execS s) (s.slice c)
  | [], s, _ => rfl
  | a :: order, s, h => by
      rw [List.foldl_cons, foldl_slice c order _ (fun b hb => h b (by simp [hb]))]
      by_cases hc : a.it = c
      · rw [List.filter_cons_of_pos (by simpa using hc), List.foldl_cons]
        subst hc
        rw [exec_own (h a (by simp))]
      · rw [List.filter_cons_of_neg (by simpa using hc), exec_other (h a (by simp)) s hc]

/-- The steps of iteration `c` in an interleaving are the steps of iteration `c`. -/
theorem interleave_filter {ts : List (List (StepJ R))} {order : List (StepJ R)} (h : Interleave ts order)
    (ht : ∀ (k : Nat) (t : List (StepJ R)), ts[k]? = some t → ∀ a ∈ t, a.it = k) (c : Nat) :
    order.filter (fun a => decide (a.it = c)) = (ts[c]?).getD [] := by
  induction h with
  | @done ts h0 =>
    cases hc : ts[c]? with
    | none => rfl
    | some t => rw [h0 t (List.mem_of_getElem? hc)]; rfl
  | @step ts i a t l hi _ ih =>
    have hlt : i < ts.length := (List.getElem?_eq_some_iff.1 hi).1
    have ha : a.it = i := ht i _ hi a (by simp)
    have ih := ih (by
      intro k t' hk b hb
      rw [List.getElem?_set] at hk
      by_cases hik : i = k
      · subst hik
        rw [if_pos rfl, if_pos hlt, Option.some.injEq] at hk
        subst hk
        exact ht i _ hi b (by simp [hb])
      · rw [if_neg hik] at hk
        exact ht k t' hk b hb)
    rw [List.getElem?_set] at ih
    by_cases hic : i = c
    · subst hic
      rw [List.filter_cons_of_pos (by simpa using ha), ih, if_pos rfl, if_pos hlt, hi]
      rfl
    · rw [List.filter_cons_of_neg (by simpa [ha] using hic), ih, if_neg hic]

theorem mem_stepsJ {it : Nat} {us : List (UpdJ R)} {a : StepJ R} (h : a ∈ stepsJ it us) :
    a.it = it ∧ ∃ u ∈ us, a.loc = (u.m, u.row, u.col) := by
  rw [stepsJ, List.mem_flatMap] at h
  obtain ⟨u, hu, h⟩ := h
  simp only [List.mem_cons, List.not_mem_nil, or_false] at h
  rcases h with rfl | rfl
  · exact ⟨rfl, u, hu, rfl⟩
  · exact ⟨rfl, u, hu, rfl⟩

theorem foldl_stepsJ (it : Nat) : ∀ (us : List (UpdJ R)) (s : (Nat → Nat → R) × R),
    ((stepsJ it us).foldl (fun s a => a.execS s) s).1 = us.foldl (fun acc u => accAt acc u.m u.row u.x) s.1
  | [], s => rfl
  | u :: us, s => by
      have e : stepsJ it (u :: us) = .load it u :: .store it u :: stepsJ it us := by
        rw [stepsJ, List.flatMap_cons]; rfl
      rw [e, List.foldl_cons, List.foldl_cons, foldl_stepsJ it us, List.foldl_cons]
      congr 1
      funext a b
      simp only [StepJ.execS, accAt]
      by_cases h : a = u.m ∧ b = u.row
      · obtain ⟨rfl, rfl⟩ := h
        simp
      · simp [h]

theorem forRange_map2 {σ τ : Type} (φ : τ → σ) {f : Nat → σ → Res σ} {g : Nat → τ → Res τ}
    (h : ∀ i t s', f i (φ t) = .ok s' → ∃ t', g i t = .ok t' ∧ φ t' = s') : ∀ (k : Nat) (t : τ) {s' : σ},
    forRange k (φ t) f = .ok s' → ∃ t', forRange k t g = .ok t' ∧ φ t' = s'
  | 0, t, s', e => ⟨t, rfl, by cases e; rfl⟩
  | k + 1, t, s', e => by
      rw [forRange, Res.bind_eq_ok] at e
      obtain ⟨s1, e1, e2⟩ := e
      obtain ⟨t1, f1, rfl⟩ := forRange_map2 φ h k t e1
      obtain ⟨t2, f2, e3⟩ := h k t1 s' e2
      exact ⟨t2, by rw [forRange, f1, Res.bind_ok, f2], e3⟩

/-- What the additions of a column leave in it. -/
def colOf (us : List (UpdJ R)) : Nat → Nat → R := us.foldl (fun acc u => accAt acc u.m u.row u.x) (fun _ _ => 0)

theorem redColJ_upds {D : DR R} {top : CMat R} {listG listF : List IVec} {dictG dictW : MonMap Nat} {v : IVec} {k : Nat}
    {col : Nat → Nat → R} (h : redColJ D top listG listF dictG dictW v k = .ok col) :
    ∃ us, updsColJ D top listG listF dictG dictW v k = .ok us ∧ colOf us = col := by
  rw [redColJ, Res.bind_eq_ok] at h
  obtain ⟨w, a1, h⟩ := h
  rw [updsColJ, a1, Res.bind_ok]
  cases hw : decAll w with
  | none =>
    rw [hw] at h
    cases h
    exact ⟨[], rfl, rfl⟩
  | some w' =>
    rw [hw] at h
    simp only at h ⊢
    rw [Res.bind_eq_ok] at h
    obtain ⟨_, a2, h⟩ := h
    rw [Res.bind_eq_ok] at h
    obtain ⟨cw, a3, h⟩ := h
    rw [a2, Res.bind_ok, a3, Res.bind_ok]
    refine forRange_map2 colOf ?_ _ [] h
    intro i us s' e
    refine forRange_map2 colOf ?_ _ us e
    intro s us s' e
    rw [Res.bind_eq_ok] at e
    obtain ⟨t, b1, e⟩ := e
    rw [Res.bind_eq_ok] at e
    obtain ⟨row, b2, e⟩ := e
    rw [Res.bind_eq_ok] at e
    obtain ⟨F, b3, e⟩ := e
    cases e
    refine ⟨_, by rw [b1, Res.bind_ok, b2, Res.bind_ok, b3, Res.bind_ok]; rfl, ?_⟩
    rw [colOf, List.foldl_append]
    rfl

theorem updsColJ_col {D : DR R} {top : CMat R} {listG listF : List IVec} {dictG dictW : MonMap Nat} {v : IVec} {k : Nat}
    {us : List (UpdJ R)} (h : updsColJ D top listG listF dictG dictW v k = .ok us) : ∀ u ∈ us, u.col = k := by
  rw [updsColJ, Res.bind_eq_ok] at h
  obtain ⟨w, a1, h⟩ := h
  cases hw : decAll w with
  | none =>
    rw [hw] at h
    cases h
    simp
  | some w' =>
    rw [hw] at h
    simp only at h
    rw [Res.bind_eq_ok] at h
    obtain ⟨_, a2, h⟩ := h
    rw [Res.bind_eq_ok] at h
    obtain ⟨cw, a3, h⟩ := h
    refine forRange_ok_inv (fun _ (us : List (UpdJ R)) => ∀ u ∈ us, u.col = k) (by simp) ?_ h
    intro i us us' _ hus e
    refine forRange_ok_inv (fun _ (us : List (UpdJ R)) => ∀ u ∈ us, u.col = k) hus ?_ e
    intro s us us' _ hus e
    rw [Res.bind_eq_ok] at e
    obtain ⟨t, b1, e⟩ := e
    rw [Res.bind_eq_ok] at e
    obtain ⟨row, b2, e⟩ := e
    rw [Res.bind_eq_ok] at e
    obtain ⟨F, b3, e⟩ := e
    cases e
    intro u hu
    rw [List.mem_append] at hu
    rcases hu with hu | hu
    · exact hus u hu
    · simp only [List.mem_cons, List.not_mem_nil, or_false] at hu
      rcases hu with rfl | rfl <;> rfl

theorem forRange_upds {g : Nat → Res (Nat → Nat → R)} {u : Nat → Res (List (UpdJ R))}
    (h : ∀ k col, g k = .ok col → ∃ us, u k = .ok us ∧ colOf us = col) : ∀ (k : Nat) {M : Nat → Nat → Nat → R},
    forRange k ((fun _ _ _ => 0) : Nat → Nat → Nat → R) (fun k M => do
      let col ← g k
      pure (fun i r c => if c = k then col i r else M i r c)) = .ok M →
    ∃ us, (List.range k).mapM u = .ok us ∧ us.length = k ∧
      ∀ (c : Nat) (w : List (UpdJ R)), us[c]? = some w → u c = .ok w ∧ ∀ i r, M i r c = colOf w i r
  | 0, M, e => ⟨[], rfl, rfl, by simp⟩
  | k + 1, M, e => by
      rw [forRange, Res.bind_eq_ok] at e
      obtain ⟨M1, e1, e2⟩ := e
      rw [Res.bind_eq_ok] at e2
      obtain ⟨col, e2, e3⟩ := e2
      cases e3
      obtain ⟨us, a1, a2, a3⟩ := forRange_upds h k e1
      obtain ⟨w, b1, b2⟩ := h k col e2
      refine ⟨us ++ [w], ?_, by simp [a2], ?_⟩
      · rw [List.range_succ, List.mapM_append, a1, Res.bind_ok, List.mapM_cons, b1]; rfl
      · intro c w' hc
        by_cases hck : c = k
        · subst hck
          rw [List.getElem?_append_right (by omega), a2, Nat.sub_self] at hc
          simp only [List.getElem?_cons_zero, Option.some.injEq] at hc
          subst hc
          exact ⟨b1, fun i r => by simp only [if_true]; rw [b2]⟩
        · have hlt : c < k := by
            have := (List.getElem?_eq_some_iff.1 hc).1
            simp [a2] at this
            omega
          rw [List.getElem?_append_left (by omega)] at hc
          obtain ⟨c1, c2⟩ := a3 c w' hc
          exact ⟨c1, fun i r => by simp only [if_neg hck]; rw [c2]⟩

theorem redMatJ_upds {D : DR R} {top : CMat R} {v : IVec} {Ms : Nat → CMat R} (h : redMatJ D top v = .ok Ms) :
    ∃ len us, updsJ D top v = .ok (len, us) ∧ us.length = len ∧
      (∀ (c : Nat) (w : List (UpdJ R)), us[c]? = some w → ∀ u ∈ w, u.col = c) ∧
      ∀ i, Ms i = CMat.mk' len len (fun r c => colOf ((us[c]?).getD []) i r) := by
  rw [redMatJ, Res.bind_eq_ok] at h
  obtain ⟨listG, a1, h⟩ := h
  rw [Res.bind_eq_ok] at h
  obtain ⟨dictG, a2, h⟩ := h
  rw [Res.bind_eq_ok] at h
  obtain ⟨dictW, a3, h⟩ := h
  rw [Res.bind_eq_ok] at h
  obtain ⟨listF, a4, h⟩ := h
  rw [Res.bind_eq_ok] at h
  obtain ⟨M, a5, h⟩ := h
  cases h
  obtain ⟨us, b1, b2, b3⟩ := forRange_upds (u := fun k => updsColJ D top listG listF dictG dictW v k)
    (fun k col e => redColJ_upds e) _ a5
  refine ⟨listG.length, us, ?_, b2, fun c w hc => updsColJ_col (b3 c w hc).1, fun i => ?_⟩
  · rw [updsJ, a1, Res.bind_ok, a2, Res.bind_ok, a3, Res.bind_ok, a4, Res.bind_ok, b1]; rfl
  · simp only [CMat.mk', CMat.mk.injEq, true_and]
    funext r c
    by_cases hc : r < listG.length ∧ c < listG.length
    · rw [if_pos hc, if_pos hc]
      have hc' : c < us.length := by omega
      rw [List.getElem?_eq_getElem hc', (b3 c _ (List.getElem?_eq_getElem hc')).2]
      rfl
    · rw [if_neg hc, if_neg hc]

end

end Verif
