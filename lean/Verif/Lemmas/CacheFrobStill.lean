import Verif.Lemmas.CacheFrob
import Verif.Lemmas.CacheNDStill
import Verif.Lemmas.FrobTweak

/-! After `compute_everything_J` the Frobenius functions of `hypersurface` write to no dictionary. -/

namespace Verif

open Spec

variable {q : Nat} {solve solve' : Solver (ZMod q)} {D : DR (ZMod q)}

/-! ### Filling -/

/-- Entries are kept. -/
structure JLe (st st' : JCache q) : Prop where
  red : ∀ v, (st.redD.find? v).isSome = true → (st'.redD.find? v).isSome = true
  redZ : ∀ v, (st.redZD.find? v).isSome = true → (st'.redZD.find? v).isSome = true
  incl : ∀ v, (st.inclD.find? v).isSome = true → (st'.inclD.find? v).isSome = true

theorem JLe.refl (st : JCache q) : JLe st st := ⟨fun _ h => h, fun _ h => h, fun _ h => h⟩

theorem JLe.trans {a b c : JCache q} (h : JLe a b) (h' : JLe b c) : JLe a c :=
  ⟨fun v hv => h'.red v (h.red v hv), fun v hv => h'.redZ v (h.redZ v hv), fun v hv => h'.incl v (h.incl v hv)⟩

theorem JM.bind_eq_ok {α β : Type} {x : JM q α} {g : α → JM q β} {st st2 : JCache q} {b : β}
    (h : (x >>= g) st = .ok (b, st2)) : ∃ a st1, x st = .ok (a, st1) ∧ g a st1 = .ok (b, st2) := by
  cases hx : x st with
  | error e => rw [JM.bind_error hx] at h; cases h
  | ok r =>
    obtain ⟨a, st1⟩ := r
    rw [JM.bind_ok hx] at h
    exact ⟨a, st1, rfl, h⟩

theorem JM.pureRes_eq_ok {α : Type} {x : Res α} {st st' : JCache q} {a : α}
    (h : JM.pureRes x st = .ok (a, st')) : x = .ok a ∧ st' = st := by
  cases x with
  | error e => cases h
  | ok b =>
    obtain ⟨h1, h2⟩ := Prod.mk.inj (Except.ok.inj h)
    exact ⟨by rw [h1], h2.symm⟩

/-- A method that only changes `solve_J` or the final matrices. -/
def KeepsMaps {α : Type} (x : JM q α) : Prop := ∀ st a st', x st = .ok (a, st') →
  st'.redD = st.redD ∧ st'.redZD = st.redZD ∧ st'.inclD = st.inclD

theorem KeepsMaps.pure {α : Type} (a : α) : KeepsMaps (pure a : JM q α) := by
  intro st b st' h
  obtain ⟨-, rfl⟩ := Prod.mk.inj (Except.ok.inj h)
  exact ⟨rfl, rfl, rfl⟩

theorem KeepsMaps.pureRes {α : Type} (y : Res α) : KeepsMaps (JM.pureRes y : JM q α) := by
  intro st b st' h
  rw [(JM.pureRes_eq_ok h).2]
  exact ⟨rfl, rfl, rfl⟩

theorem KeepsMaps.bind {α β : Type} {x : JM q α} {g : α → JM q β} (h : KeepsMaps x)
    (hg : ∀ a, KeepsMaps (g a)) : KeepsMaps (x >>= g) := by
  intro st b st' he
  obtain ⟨a, st1, e1, e2⟩ := JM.bind_eq_ok he
  obtain ⟨a1, a2, a3⟩ := h _ _ _ e1
  obtain ⟨b1, b2, b3⟩ := hg a _ _ _ e2
  exact ⟨b1.trans a1, b2.trans a2, b3.trans a3⟩

theorem keepsMaps_solveJ (l : Int) : KeepsMaps (cSolveJ solve D l) := by
  intro st b st' h
  rw [cSolveJ] at h
  split at h
  · cases h; exact ⟨rfl, rfl, rfl⟩
  · split at h
    · cases h; exact ⟨rfl, rfl, rfl⟩
    · cases h

theorem keepsMaps_body (Mlow : CMat (ZMod q)) (k : Nat) : KeepsMaps (cFinalBody solve D Mlow k) := by
  rw [cFinalBody]
  exact .bind (.pureRes _) (fun _ => .bind (.pureRes _) (fun _ => .bind (.pureRes _) (fun _ =>
    .bind (.pureRes _) (fun _ => .bind (keepsMaps_solveJ _) (fun _ => .bind (.pureRes _) (fun _ => .pure _))))))

theorem keepsMaps_step (k : Nat) : KeepsMaps (cFinalStep solve D k) := by
  intro st a st' h
  rw [cFinalStep] at h
  split at h
  · cases h
  split at h
  · split at h
    · cases h; exact ⟨rfl, rfl, rfl⟩
    · cases h
  · split at h
    · cases h
    · obtain ⟨M, st1, e1, e2⟩ := JM.bind_eq_ok h
      have := keepsMaps_body _ _ _ _ _ e1
      obtain ⟨-, rfl⟩ := Prod.mk.inj (Except.ok.inj e2)
      exact this

theorem keepsMaps_loop (cnt : Nat) : ∀ k, KeepsMaps (cFinalLoop solve D k cnt) := by
  induction cnt with
  | zero => intro k; exact .pure _
  | succ cnt ih => intro k; exact .bind (keepsMaps_step _) (fun _ => ih _)

theorem keepsMaps_final (k : Nat) : KeepsMaps (cFinalJ solve D k) := by
  intro st a st' h
  rw [cFinalJ] at h
  split at h
  · cases h
  · obtain ⟨_, st1, e1, e2⟩ := JM.bind_eq_ok h
    have h1 := keepsMaps_loop _ _ _ _ _ e1
    obtain ⟨s, st2, e3, e4⟩ := JM.bind_eq_ok e2
    obtain ⟨h0, h2⟩ := Prod.mk.inj (Except.ok.inj e3)
    rw [← h2, ← h0] at e4
    cases hg : st1.finalD[k - 1]? with
    | none => rw [hg] at e4; cases e4
    | some M' =>
      rw [hg] at e4
      obtain ⟨-, h3⟩ := Prod.mk.inj (Except.ok.inj e4)
      rw [← h3]; exact h1

theorem final_length {k : Nat} {st st' : JCache q} {M : CMat (ZMod q)} (h : cFinalJ solve D k st = .ok (M, st')) :
    k ≤ st'.finalD.length := by
  rw [cFinalJ] at h
  split at h
  · cases h
  · obtain ⟨_, st1, e1, e2⟩ := JM.bind_eq_ok h
    obtain ⟨s, st2, e3, e4⟩ := JM.bind_eq_ok e2
    obtain ⟨h1, h2⟩ := Prod.mk.inj (Except.ok.inj e3)
    rw [← h2, ← h1] at e4
    cases hg : st1.finalD[k - 1]? with
    | none => rw [hg] at e4; cases e4
    | some M' =>
      rw [hg] at e4
      obtain ⟨-, h3⟩ := Prod.mk.inj (Except.ok.inj e4)
      rw [← h3]
      have := (List.getElem?_eq_some_iff.1 hg).1
      omega

theorem find?_set_self {V : Type} (m : MonMap V) (k : IVec) (x : V) : ((m.set k x).find? k).isSome = true := by
  rw [MonMap.find?_set, if_pos rfl]; rfl

theorem redJ_has (v : IVec) {st st' : JCache q} {Ms} (h : cRedJ solve D v st = .ok (Ms, st')) :
    JLe st st' ∧ (st'.redD.find? v).isSome = true := by
  rw [cRedJ] at h
  cases hf : st.redD.find? v with
  | some x =>
    rw [hf] at h
    obtain ⟨-, rfl⟩ := Prod.mk.inj (Except.ok.inj h)
    exact ⟨JLe.refl _, by rw [hf]; rfl⟩
  | none =>
    rw [hf] at h
    obtain ⟨top, st1, e1, h1⟩ := JM.bind_eq_ok h
    obtain ⟨a1, a2, a3⟩ := keepsMaps_solveJ _ _ _ _ e1
    obtain ⟨Ms', st2, e2, h2⟩ := JM.bind_eq_ok h1
    obtain ⟨-, e2⟩ := JM.pureRes_eq_ok e2
    rw [e2] at h2
    obtain ⟨_, st3, e3, h3⟩ := JM.bind_eq_ok h2
    obtain ⟨-, e3⟩ := Prod.mk.inj (Except.ok.inj e3)
    obtain ⟨-, h3⟩ := Prod.mk.inj (Except.ok.inj h3)
    rw [← h3, ← e3]
    exact ⟨⟨fun w hw => by simp only [a1]; exact isSome_set _ _ _ _ hw, fun w hw => by simp only [a2]; exact hw,
      fun w hw => by simp only [a3]; exact hw⟩, find?_set_self _ _ _⟩

theorem redJZ_has (sm : Bool) (v : IVec) {st st' : JCache q} {Ms} (hv : (st.redD.find? v).isSome = true)
    (h : cRedJZ solve D sm v st = .ok (Ms, st')) : JLe st st' ∧ (st'.redZD.find? v).isSome = true := by
  rw [cRedJZ] at h
  cases hf : st.redZD.find? v with
  | some x =>
    rw [hf] at h
    obtain ⟨-, rfl⟩ := Prod.mk.inj (Except.ok.inj h)
    exact ⟨JLe.refl _, by rw [hf]; rfl⟩
  | none =>
    rw [hf] at h
    cases hf2 : st.redD.find? v with
    | none => rw [hf2] at hv; cases hv
    | some Ms' =>
      rw [hf2] at h
      obtain ⟨-, rfl⟩ := Prod.mk.inj (Except.ok.inj h)
      exact ⟨⟨fun _ h => h, fun w hw => isSome_set _ _ _ _ hw, fun _ h => h⟩, find?_set_self _ _ _⟩

theorem inclJ_has (u : IVec) {st st' : JCache q} {M} (h : cInclJ D u st = .ok (M, st')) :
    JLe st st' ∧ (st'.inclD.find? u).isSome = true := by
  rw [cInclJ] at h
  split at h
  · cases h
  cases hf : st.inclD.find? u with
  | some x =>
    rw [hf] at h
    obtain ⟨-, rfl⟩ := Prod.mk.inj (Except.ok.inj h)
    exact ⟨JLe.refl _, by rw [hf]; rfl⟩
  | none =>
    rw [hf] at h
    cases hm : inclMatJ D u with
    | error e => rw [hm] at h; cases h
    | ok M' =>
      rw [hm] at h
      obtain ⟨-, rfl⟩ := Prod.mk.inj (Except.ok.inj h)
      exact ⟨⟨fun _ h => h, fun _ h => h, fun w hw => isSome_set _ _ _ _ hw⟩, find?_set_self _ _ _⟩

/-- A loop over a list whose body keeps the entries and makes `P` true of its argument. -/
theorem forM_hasJ {α : Type} {x : α → JM q PUnit} {P : α → JCache q → Prop}
    (hP : ∀ a st st', JLe st st' → P a st → P a st')
    (hx : ∀ a st st', x a st = .ok ((), st') → JLe st st' ∧ P a st') (L : List α) : ∀ {st st' : JCache q},
    L.forM x st = .ok ((), st') → JLe st st' ∧ ∀ a ∈ L, P a st' := by
  induction L with
  | nil =>
    intro st st' h
    obtain ⟨-, rfl⟩ := Prod.mk.inj (Except.ok.inj h)
    exact ⟨JLe.refl _, fun a ha => by simp at ha⟩
  | cons a L ih =>
    intro st st' h
    have h : (x a >>= fun _ => L.forM x) st = .ok ((), st') := h
    obtain ⟨_, st1, e1, e2⟩ := JM.bind_eq_ok h
    obtain ⟨a1, a2⟩ := hx a _ _ e1
    obtain ⟨b1, b2⟩ := ih e2
    refine ⟨a1.trans b1, fun b hb => ?_⟩
    rcases List.mem_cons.1 hb with rfl | hb
    · exact hP _ _ _ b1 a2
    · exact b2 b hb

/-- Nothing is missing. -/
structure JFull (solve : Solver (ZMod q)) (D : DR (ZMod q)) (st : JCache q) : Prop where
  ok : CacheOK solve D st
  red : ∀ v, IsTuple (D.n + 1) D.d v → (st.redD.find? v).isSome = true
  redZ : ∀ v, IsTuple (D.n + 1) D.d v → (st.redZD.find? v).isSome = true
  incl : ∀ u, IsTuple (D.n + 1) D.n u → (st.inclD.find? u).isSome = true
  final : D.n ≤ st.finalD.length

theorem everythingJ_full (sm : Bool) {Ld Ln : List IVec} (eLd : D.list D.d = .ok Ld)
    (hLd : ∀ v, IsTuple (D.n + 1) D.d v → v ∈ Ld) (eLn : D.list D.n = .ok Ln)
    (hLn : ∀ v, IsTuple (D.n + 1) D.n v → v ∈ Ln) {st st' : JCache q} (hst : CacheOK solve D st)
    (h : cEverythingJ solve D sm st = .ok ((), st')) : JFull solve D st' := by
  have hok : CacheOK solve D st' := by
    obtain ⟨h1, h2⟩ := sim_everythingJ (solve := solve) (D := D) sm st hst
    cases hv : (JCall.value solve D .everything >>= fun _ => .ok () : Res Unit) with
    | error e => rw [h2 e hv] at h; cases h
    | ok a =>
      obtain ⟨s, e, hs⟩ := h1 a hv
      rw [e] at h
      obtain ⟨-, rfl⟩ := Prod.mk.inj (Except.ok.inj h)
      exact hs
  rw [cEverythingJ] at h
  obtain ⟨L1, s1, e1, h1⟩ := JM.bind_eq_ok h
  obtain ⟨e1, hs1⟩ := JM.pureRes_eq_ok e1
  rw [eLd] at e1
  obtain rfl := Except.ok.inj e1
  obtain ⟨⟨⟩, s2, e2, h2⟩ := JM.bind_eq_ok h1
  obtain ⟨L2, s3, e3, h3⟩ := JM.bind_eq_ok h2
  obtain ⟨e3, hs3⟩ := JM.pureRes_eq_ok e3
  rw [eLn] at e3
  obtain rfl := Except.ok.inj e3
  obtain ⟨⟨⟩, s4, e4, h4⟩ := JM.bind_eq_ok h3
  obtain ⟨M, s5, e5, h5⟩ := JM.bind_eq_ok h4
  obtain ⟨-, h5⟩ := Prod.mk.inj (Except.ok.inj h5)
  have k1 := forM_hasJ (P := fun v st => (st.redD.find? v).isSome = true ∧ (st.redZD.find? v).isSome = true)
    (fun a st st' hle hp => ⟨hle.red _ hp.1, hle.redZ _ hp.2⟩) (fun v st st' e => by
      obtain ⟨_, t1, f1, g1⟩ := JM.bind_eq_ok e
      obtain ⟨_, t2, f2, g2⟩ := JM.bind_eq_ok g1
      obtain ⟨-, g2⟩ := Prod.mk.inj (Except.ok.inj g2)
      obtain ⟨a1, a2⟩ := redJ_has v f1
      obtain ⟨b1, b2⟩ := redJZ_has sm v a2 f2
      rw [← g2]
      exact ⟨a1.trans b1, b1.red _ a2, b2⟩) Ld e2
  have k2 := forM_hasJ (P := fun v st => (st.inclD.find? v).isSome = true)
    (fun a st st' hle hp => hle.incl _ hp) (fun v st st' e => by
      obtain ⟨_, t1, f1, g1⟩ := JM.bind_eq_ok e
      obtain ⟨-, g1⟩ := Prod.mk.inj (Except.ok.inj g1)
      rw [← g1]
      exact inclJ_has v f1) Ln e4
  obtain ⟨c1, c2, c3⟩ := keepsMaps_final _ _ _ _ e5
  rw [h5] at c1 c2 c3
  rw [hs3] at k2
  refine ⟨hok, fun v hv => ?_, fun v hv => ?_, fun u hu => ?_, ?_⟩
  · rw [c1]; exact k2.1.red _ (k1.2 v (hLd v hv)).1
  · rw [c2]; exact k2.1.redZ _ (k1.2 v (hLd v hv)).2
  · rw [c3]; exact k2.2 u (hLn u hu)
  · rw [← h5]; exact final_length e5

/-! ### Frozen runs -/

/-- If the function without dictionaries returns, the method returns the same and leaves the state as it is. -/
def JFrz (st : JCache q) {α : Type} (x : JM q α) (y : Res α) : Prop := ∀ a, y = .ok a → x st = .ok (a, st)

theorem JFrz.pure {st : JCache q} {α : Type} (a : α) : JFrz st (pure a) (.ok a) := by
  rintro b ⟨⟩; rfl

theorem JFrz.pureRes {st : JCache q} {α : Type} (y : Res α) : JFrz st (JM.pureRes y) y := by
  rintro b rfl; rfl

theorem JFrz.bind {st : JCache q} {α β : Type} {x : JM q α} {y : Res α} {g : α → JM q β} {k : α → Res β}
    (h : JFrz st x y) (hg : ∀ a, y = .ok a → JFrz st (g a) (k a)) : JFrz st (x >>= g) (y >>= k) := by
  intro b hb
  obtain ⟨a, ha, hb⟩ := Res.bind_eq_ok.1 hb
  rw [JM.bind_ok (h a ha)]
  exact hg a ha b hb

theorem jfrz_ite {st : JCache q} {α : Type} {c : Prop} [Decidable c] {x x' : JM q α} {y y' : Res α}
    (h : c → JFrz st x y) (h' : ¬ c → JFrz st x' y') : JFrz st (if c then x else x') (if c then y else y') := by
  by_cases hc : c
  · rw [if_pos hc, if_pos hc]; exact h hc
  · rw [if_neg hc, if_neg hc]; exact h' hc

theorem jfrz_foldlM {st : JCache q} {α σ : Type} {x : σ → α → JM q σ} {y : σ → α → Res σ} (L : List α)
    (h : ∀ s a, a ∈ L → JFrz st (x s a) (y s a)) : ∀ s, JFrz st (L.foldlM x s) (L.foldlM y s) := by
  induction L with
  | nil => intro s; exact JFrz.pure _
  | cons a L ih =>
    intro s
    exact JFrz.bind (h s a (by simp)) (fun s' _ => ih (fun s b hb => h s b (by simp [hb])) s')

theorem jfrz_downTo {st : JCache q} {σ : Type} {x : Nat → σ → JM q σ} {y : Nat → σ → Res σ} (P : σ → Prop)
    (h : ∀ i s, P s → JFrz st (x i s) (y i s)) (hP : ∀ i s s', P s → y i s = .ok s' → P s') (lo n : Nat) :
    ∀ s, P s → JFrz st (cDownToJ lo x n s) (downTo lo y n s) := by
  induction n with
  | zero => intro s _; exact JFrz.pure _
  | succ n ih =>
    intro s hs
    rw [cDownToJ, downTo]
    exact (h _ s hs).bind (fun s' e => ih s' (hP _ _ _ hs e))

variable {st : JCache q}

/-! ### Each read finds its entry -/

theorem checkUV_sum {u v : IVec} {x : Unit} (hv : v.length = D.n + 1) (h : checkUV D u v = .ok x) : v.sum = D.d := by
  rw [checkUV, Res.bind_eq_ok] at h
  obtain ⟨s, h1, h2⟩ := h
  have h3 := forRange_ok_inv (fun i s => s = (v.take i).sum) (by simp) (fun i s s' hi hs e => by
    obtain ⟨_, -, e⟩ := Res.bind_eq_ok.1 e
    obtain ⟨vi, e1, e⟩ := Res.bind_eq_ok.1 e
    obtain ⟨_, -, e⟩ := Res.bind_eq_ok.1 e
    obtain rfl := Except.ok.inj e
    have hl : i < v.length := by omega
    rw [aget_of_lt _ _ hl] at e1
    obtain rfl := Except.ok.inj e1
    rw [hs, List.sum_take_succ _ _ hl]) h1
  rw [List.take_of_length_le (by omega)] at h3
  rw [← h3]
  exact of_decide_eq_true (check_eq_ok.1 h2)

theorem jfrz_redJ (hst : JFull solve D st) {v : IVec} (hv : IsTuple (D.n + 1) D.d v) :
    JFrz st (cRedJ solve' D v) (freshRedJ solve D v) := by
  intro a ha
  have hs := hst.red v hv
  cases hf : st.redD.find? v with
  | none => rw [hf] at hs; cases hs
  | some E =>
    rw [cRedJ, hf]
    rw [hst.ok.redD v E hf] at ha
    obtain rfl := Except.ok.inj ha
    rfl

theorem jfrz_redJZ (hst : JFull solve D st) (sm : Bool) {v : IVec} (hv : IsTuple (D.n + 1) D.d v) :
    JFrz st (cRedJZ solve' D sm v) (freshRedJZ solve D v) := by
  intro a ha
  have hs := hst.redZ v hv
  cases hf : st.redZD.find? v with
  | none => rw [hf] at hs; cases hs
  | some E =>
    rw [cRedJZ, hf]
    rw [hst.ok.redZD v E hf] at ha
    obtain rfl := Except.ok.inj ha
    rfl

theorem jfrz_inclJ (hst : JFull solve D st) {u : IVec} (hl : u.length = D.n + 1) (h0 : NonNeg u) :
    JFrz st (cInclJ D u) (inclMatJ D u) := by
  intro a ha
  have hs : sumVec u = D.n := by
    rw [inclMatJ, Res.bind_eq_ok] at ha
    obtain ⟨_, h, -⟩ := ha
    exact of_decide_eq_true (check_eq_ok.1 h)
  have hi := hst.incl u ⟨hl, h0, (sumVec_eq_sum u).symm.trans hs⟩
  cases hf : st.inclD.find? u with
  | none => rw [hf] at hi; cases hi
  | some E =>
    rw [cInclJ, if_neg (by simpa using hs), hf]
    rw [hst.ok.inclD u E hf] at ha
    obtain rfl := Except.ok.inj ha
    rfl

theorem jfrz_finalJ (hst : JFull solve D st) (k : Nat) : JFrz st (cFinalJ solve' D k) (finalMatJ solve D k) := by
  intro a ha
  have hk : ¬ (D.n < k ∨ k = 0) := by
    rintro (h | rfl)
    · have := (sim_finalJ (solve := solve) (D := D) k st hst.ok).1 a ha
      obtain ⟨_, e, -⟩ := this
      rw [cFinalJ, if_pos (Or.inl h)] at e
      cases e
    · cases ha
  rw [cFinalJ, if_neg hk]
  have hlen := hst.final
  rw [show k - st.finalD.length = 0 by omega]
  have hlt : k - 1 < st.finalD.length := by omega
  have hg := List.getElem?_eq_getElem hlt
  have hM := hst.ok.finalD _ _ hg
  rw [show k - 1 + 1 = k by omega, ha] at hM
  rw [cFinalLoop, JM.bind_ok (a := ()) (st' := st) rfl, JM.bind_ok (a := st) (st' := st) rfl, hg,
    ← Except.ok.inj hM]
  rfl

theorem jfrz_oneP (hst : JFull solve D st) (kind : LoopKind) (dest : IVec) {y : IVec} (hl : y.length = D.n + 1)
    (h0 : NonNeg y) (G) : JFrz st (cOneP solve' D kind dest y G) (oneP solve D kind dest y G) := by
  have hr : JFrz st (cReduceJ solve' D dest y G) (reduceVectorJ solve D dest y G) := by
    rw [reduceVectorJ_fresh]
    exact JFrz.bind (JFrz.pureRes _) (fun _ hc => JFrz.bind (jfrz_redJ hst ⟨hl, h0, checkUV_sum hl hc⟩) (fun _ _ =>
      JFrz.pureRes _))
  cases kind
  · exact hr
  · exact hr
  · refine JFrz.bind ?_ (fun _ _ => JFrz.pureRes _)
    rw [getReductionMatrixJ_fresh]
    exact JFrz.bind (JFrz.pureRes _) (fun _ hc => JFrz.bind (jfrz_redJ hst ⟨hl, h0, checkUV_sum hl hc⟩) (fun _ _ =>
      JFrz.pure _))

theorem jfrz_oneZ (hst : JFull solve D st) (sm : Bool) (kind : LoopKind) (dest : IVec) {y : IVec}
    (hl : y.length = D.n + 1) (h0 : NonNeg y) (G) :
    JFrz st (cOneZ solve' D sm kind dest y G) (oneZ solve D kind dest y G) := by
  have hr : JFrz st (cReduceJZ solve' D sm dest y G) (reduceVectorJZ solve D dest y G) :=
    JFrz.bind (JFrz.pureRes _) (fun _ hc => JFrz.bind (jfrz_redJZ hst sm ⟨hl, h0, checkUV_sum hl hc⟩) (fun _ _ =>
      JFrz.pureRes _))
  cases kind
  · exact JFrz.bind hr (fun _ _ => JFrz.pure _)
  · exact JFrz.bind hr (fun _ _ => JFrz.pure _)
  · exact JFrz.bind (JFrz.bind (JFrz.pureRes _) (fun _ hc => JFrz.bind (jfrz_redJZ hst sm ⟨hl, h0, checkUV_sum hl hc⟩)
      (fun _ _ => JFrz.pure _))) (fun _ _ => JFrz.bind (JFrz.pureRes _) (fun _ _ => JFrz.pure _))

/-! ### The points visited -/

theorem bumpFirst_inv : ∀ {w v v' : IVec}, Below w v → bumpFirst w v = some v' → Below w v'
  | [], _, _, _, h => by simp [bumpFirst] at h
  | _ :: _, [], _, _, h => by simp [bumpFirst] at h
  | x :: w, y :: v, v', hb, h => by
    rw [bumpFirst] at h
    obtain ⟨h1, h2⟩ := List.forall₂_cons.1 hb
    split at h
    · cases h
      exact List.forall₂_cons.2 ⟨⟨by omega, by omega, by omega⟩, h2⟩
    · rw [Option.map_eq_some_iff] at h
      obtain ⟨z, hz, rfl⟩ := h
      exact List.forall₂_cons.2 ⟨h1, bumpFirst_inv h2 hz⟩

theorem dirLoop_inv {w : IVec} : ∀ (k : Nat) {v v' : IVec}, Below w v → dirLoop w k v = .ok v' → Below w v'
  | 0, v, v', hb, h => by cases h; exact hb
  | k + 1, v, v', hb, h => by
    rw [dirLoop] at h
    cases hz : bumpFirst w v with
    | none => rw [hz] at h; cases h
    | some z => rw [hz] at h; exact dirLoop_inv k (bumpFirst_inv hb hz) h

theorem direction_inv {d : Nat} {w v : IVec} (hw : NonNeg w) (h : direction d w = .ok v) : Below w v :=
  dirLoop_inv _ (below_init hw).1 h

theorem Below.nonneg {w v : IVec} (h : Below w v) : NonNeg v := by
  induction h with
  | nil => intro x hx; simp at hx
  | cons h1 _ ih =>
    intro x hx
    rcases List.mem_cons.1 hx with rfl | hx
    · exact h1.1
    · exact ih x hx

theorem Below.sub_nonneg {w v y : IVec} (h : Below w v) (hy : subVec w v = .ok y) : NonNeg y ∧ y.length = w.length := by
  rw [subVec_ok h.length_eq] at hy
  obtain rfl := Except.ok.inj hy
  clear hy
  refine ⟨?_, by rw [List.length_zipWith, ← h.length_eq, min_self]⟩
  induction h with
  | nil => intro x hx; simp at hx
  | cons h1 _ ih =>
    intro x hx
    rw [List.zipWith_cons_cons] at hx
    rcases List.mem_cons.1 hx with rfl | hx
    · show (0 : Int) ≤ _ - _
      omega
    · exact ih x hx

section

variable {V : Type} {one : IVec → IVec → V → JM q V} {one' : IVec → IVec → V → Res V}

theorem tweakAt_diff {n p r i : Nat} {u v y : IVec} (hu : u.length = n + 1) (hb : Below u v) (hi : i < p)
    (hy : subVec (tweakNat (axmy p i u v) r) (tweakNat (axmy p (i + 1) u v) r) = .ok y) :
    y.length = n + 1 ∧ NonNeg y := by
  have hl : ∀ i, (tweakNat (axmy p i u v) r).length = n + 1 := fun i => by
    rw [tweakNat_length, axmy_length hb.length, hu]
  have hst := tweak_step (axmy_step hb hi) r r (le_refl _)
  rw [axmy_succ hb] at hst
  rw [subVec_ok (by rw [hl, hl])] at hy
  obtain rfl := Except.ok.inj hy
  refine ⟨by rw [List.length_zipWith, hl, hl, min_self], ?_⟩
  have : ∀ {s t : IVec}, List.Forall₂ (fun s t : Int => t ≤ s ∧ (t = 0 ∨ t < s)) s t →
      NonNeg (List.zipWith (· - ·) s t) := by
    intro s t h
    induction h with
    | nil => intro x hx; simp at hx
    | cons h1 _ ih =>
      intro x hx
      rw [List.zipWith_cons_cons] at hx
      rcases List.mem_cons.1 hx with rfl | hx
      · show (0 : Int) ≤ _ - _
        omega
      · exact ih x hx
  exact this hst

theorem jfrz_redSteps {n p r : Nat} (h : ∀ a b G, b.length = n + 1 → NonNeg b → JFrz st (one a b G) (one' a b G))
    {u v : IVec} (hu : u.length = n + 1) (hb : Below u v) (cnt : Nat) :
    ∀ i dest G, i + cnt ≤ p → JFrz st (cRedSteps one p r u v i cnt dest G) (redSteps one' p r u v i cnt dest G) := by
  induction cnt with
  | zero => intro i dest G _; exact JFrz.pure _
  | succ cnt ih =>
    intro i dest G hi
    rw [cRedSteps, redSteps]
    refine JFrz.bind (JFrz.pureRes _) (fun s hs => JFrz.bind (JFrz.pureRes _) (fun t ht => JFrz.bind (JFrz.pureRes _)
      (fun y hy => ?_)))
    rw [tweakAt_eq hb.length] at hs ht
    obtain rfl := Except.ok.inj hs
    obtain rfl := Except.ok.inj ht
    obtain ⟨h1, h2⟩ := tweakAt_diff hu hb (by omega) hy
    exact JFrz.bind (h _ _ _ h1 h2) (fun _ _ => ih _ _ _ (by omega))

theorem redSteps_dest {p r : Nat} {u v : IVec} (hb : Below u v) (cnt : Nat) :
    ∀ i dest G {x : IVec × V}, (cnt = 0 → dest = tweakNat (axmy p i u v) r) →
      redSteps one' p r u v i cnt dest G = .ok x → x.1 = tweakNat (axmy p (i + cnt) u v) r := by
  induction cnt with
  | zero =>
    intro i dest G x h0 h
    obtain rfl := Except.ok.inj h
    exact h0 rfl
  | succ cnt ih =>
    intro i dest G x _ h
    rw [redSteps] at h
    obtain ⟨s, hs, h⟩ := Res.bind_eq_ok.1 h
    obtain ⟨t, ht, h⟩ := Res.bind_eq_ok.1 h
    obtain ⟨y, hy, h⟩ := Res.bind_eq_ok.1 h
    obtain ⟨G', hG, h⟩ := Res.bind_eq_ok.1 h
    rw [tweakAt_eq hb.length] at ht
    obtain rfl := Except.ok.inj ht
    have := ih (i + 1) _ _ (fun _ => rfl) h
    rw [this, show i + 1 + cnt = i + (cnt + 1) by omega]

theorem jfrz_termRed {batch : IVec → IVec → Int → V → JM q V} {batch' : IVec → IVec → Int → V → Res V} {n p r : Nat}
    (h : ∀ a b G, b.length = n + 1 → NonNeg b → JFrz st (one a b G) (one' a b G))
    (hbt : ∀ a b k G, b.length = n + 1 → NonNeg b → JFrz st (batch a b k G) (batch' a b k G))
    (kind : LoopKind) {last : Nat} (hlast : last ≤ p) {u v : IVec} (hu : u.length = n + 1) (hb : Below u v) (G : V) :
    JFrz st (cTermRed one batch kind p r last u v G) (termRed one' batch' kind p r last u v G) := by
  rw [cTermRed, termRed]
  exact jfrz_ite (fun hc => JFrz.bind (JFrz.pureRes _) (fun _ _ => JFrz.bind (JFrz.pureRes _) (fun _ _ =>
    JFrz.bind (JFrz.pureRes _) (fun _ _ => JFrz.bind (JFrz.pureRes _) (fun _ _ => JFrz.bind (JFrz.pureRes _) (fun _ _ =>
    JFrz.bind (JFrz.pureRes _) (fun _ _ => JFrz.bind (JFrz.pureRes _) (fun _ _ =>
    JFrz.bind (hbt _ _ _ _ (by rw [hb.length, hu]) hb.nonneg) (fun _ _ =>
    jfrz_redSteps h hu hb _ _ _ _ (by have := hc.2; rw [Int.toNat_natCast]; omega))))))))))
    (fun _ => jfrz_redSteps h hu hb _ _ _ _ (by omega))

theorem termRed_dest {batch' : IVec → IVec → Int → V → Res V} {n p r : Nat} (hr : 0 < r) (kind : LoopKind) {last : Nat}
    (hlast : last ≤ p) (hl0 : 0 < last) {u v : IVec} (hu : u.length = n + 1) (hb : Below u v) {G : V} {x : IVec × V}
    (h : termRed one' batch' kind p r last u v G = .ok x) : x.1.length = n + 1 ∧ NonNeg x.1 := by
  have e : ∃ i, i ≤ p ∧ x.1 = tweakNat (axmy p i u v) r := by
    rw [termRed] at h
    split at h
    · next hc =>
      obtain ⟨_, -, h⟩ := Res.bind_eq_ok.1 h
      obtain ⟨_, -, h⟩ := Res.bind_eq_ok.1 h
      obtain ⟨_, -, h⟩ := Res.bind_eq_ok.1 h
      obtain ⟨_, -, h⟩ := Res.bind_eq_ok.1 h
      obtain ⟨_, -, h⟩ := Res.bind_eq_ok.1 h
      obtain ⟨_, -, h⟩ := Res.bind_eq_ok.1 h
      obtain ⟨_, -, h⟩ := Res.bind_eq_ok.1 h
      obtain ⟨_, -, h⟩ := Res.bind_eq_ok.1 h
      exact ⟨_, by have := hc.2; rw [Int.toNat_natCast]; omega, redSteps_dest hb _ _ _ _ (fun h0 => by
        rw [Int.toNat_natCast] at h0; omega) h⟩
    · exact ⟨_, by omega, redSteps_dest hb _ _ _ _ (fun h0 => by omega) h⟩
  obtain ⟨i, hi, e⟩ := e
  rw [e]
  exact ⟨by rw [tweakNat_length, axmy_length hb.length, hu], (tweakNat_props _ r (axmy_nonneg hb hi)).1⟩

end

/-! ### The two functions -/

/-- What the frozen run needs of the reduction of a term. -/
structure TermStill (st : JCache q) (n p : Nat) (var : FrobVar (ZMod q)) (term : JTerm q) : Prop where
  frz : ∀ last u v G, last ≤ p → u.length = n + 1 → Below u v → JFrz st (term last u v G) (var.term last u v G)
  dest : ∀ last u v G x, last ≤ p → 0 < last → u.length = n + 1 → Below u v → var.term last u v G = .ok x →
    x.1.length = n + 1 ∧ NonNeg x.1

theorem reach_nat {n d : Nat} (hn : 1 ≤ n) (hd : n < d) : ∃ r : Nat, 0 < r ∧ ((d : Int) * n - n) = r := by
  refine ⟨d * n - n, ?_, ?_⟩
  · have : n < d * n := by nlinarith
    omega
  · have : n ≤ d * n := by nlinarith
    push_cast [Nat.cast_sub this]; ring

theorem termStill_P (hst : JFull solve D st) (hn : 1 ≤ D.n) (hd : D.n < D.d) (p : Nat) (kind : LoopKind) :
    TermStill st D.n p (varP solve D p kind) (cTermP solve' D p kind) := by
  obtain ⟨r, hr, e⟩ := reach_nat hn hd
  constructor
  · intro last u v G hl hu hb
    rw [cTermP, varP]
    simp only [e]
    exact jfrz_termRed (fun a b G h1 h2 => jfrz_oneP hst kind a h1 h2 G) (fun a b k G h1 h2 =>
      JFrz.bind (JFrz.pureRes _) (fun _ hc => JFrz.bind (jfrz_redJ hst ⟨h1, h2, checkUV_sum h1 hc⟩) (fun _ _ =>
        JFrz.pureRes _))) kind hl hu hb G
  · intro last u v G x hl hl0 hu hb h
    rw [varP] at h
    simp only [e] at h
    exact termRed_dest hr kind hl hl0 hu hb h

theorem termStill_Z (hst : JFull solve D st) (hn : 1 ≤ D.n) (hd : D.n < D.d) (sm : Bool) (p : Nat) (kind : LoopKind) :
    TermStill st D.n p (varZ solve D p kind) (cTermZ solve' D sm p kind) := by
  obtain ⟨r, hr, e⟩ := reach_nat hn hd
  constructor
  · intro last u v G hl hu hb
    rw [cTermZ, varZ]
    simp only [e]
    exact JFrz.bind (jfrz_termRed (fun a b G h1 h2 => jfrz_oneZ hst sm kind a h1 h2 G) (fun a b k G h1 h2 =>
      JFrz.bind (JFrz.pureRes _) (fun _ hc => JFrz.bind (jfrz_redJZ hst sm ⟨h1, h2, checkUV_sum h1 hc⟩) (fun _ _ =>
        JFrz.pureRes _))) kind hl hu hb _) (fun _ _ => JFrz.pure _)
  · intro last u v G x hl hl0 hu hb h
    rw [varZ] at h
    simp only [e] at h
    obtain ⟨y, hy, h⟩ := Res.bind_eq_ok.1 h
    obtain rfl := Except.ok.inj h
    have := termRed_dest hr kind hl hl0 hu hb hy
    exact this

/-- The keys are tuples of the right length with nonnegative entries. -/
def GoodKeys {W : Type} (n : Nat) (H : MonMap W) : Prop := ∀ t ∈ H, t.1.length = n + 1 ∧ NonNeg t.1

theorem GoodKeys.set {W : Type} {n : Nat} {H : MonMap W} (h : GoodKeys n H) {k : IVec} (hk : k.length = n + 1 ∧ NonNeg k)
    (v : W) : GoodKeys n (MonMap.set H k v) := by
  intro t ht
  rcases mem_set_any ht with rfl | ht
  · exact hk
  · exact h t ht

theorem addVec_length {a b c : IVec} (h : addVec a b = .ok c) : c.length = b.length ∧ a.length = b.length := by
  rw [addVec, Res.bind_eq_ok] at h
  obtain ⟨_, h0, h⟩ := h
  have h0 : a.length = b.length := by
    have := check_eq_ok.1 h0
    simpa using this
  obtain rfl := Except.ok.inj h
  exact ⟨by rw [List.length_zipWith, h0, min_self], h0⟩

theorem goodKeys_addTerms {p : Nat} {ei : IVec} (hei : ∀ x ∈ ei, 0 ≤ x) {c : ZMod q → ZMod q} {dictV : MonMap Nat}
    {P : MonMap (ZMod q)} (hP : ∀ t ∈ P, ∀ x ∈ t.1, 0 ≤ x) {H H' : MonMap (CVec (ZMod q))} (hH : GoodKeys D.n H)
    (h : addTerms D p ei c dictV P H = .ok H') : GoodKeys D.n H' := by
  rw [addTerms] at h
  refine foldlM_keeps (GoodKeys D.n) P hH (fun s t s' ht hs e => ?_) h
  obtain ⟨a, e1, e⟩ := Res.bind_eq_ok.1 e
  obtain ⟨mon, e2, e⟩ := Res.bind_eq_ok.1 e
  obtain ⟨_, -, e⟩ := Res.bind_eq_ok.1 e
  obtain ⟨_, -, e⟩ := Res.bind_eq_ok.1 e
  obtain ⟨_, -, e⟩ := Res.bind_eq_ok.1 e
  obtain rfl := Except.ok.inj e
  rw [addTerm]
  refine hs.set ⟨by rw [(addVec_length e2).1, List.length_replicate], fun x hx => ?_⟩ _
  have h1 := addVec_ge (hP t ht) hei e1
  have h2 := addVec_ge (l := 1) h1 (fun x hx => by rw [List.eq_of_mem_replicate hx]) e2 x hx
  omega

theorem goodKeys_acc {n : Nat} {H H' : MonMap (CVec (ZMod q))} (hH : GoodKeys n H) {y : IVec}
    (hy : y.length = n + 1 ∧ NonNeg y) {G : CVec (ZMod q)} (h : accTerm H y G = .ok H') : GoodKeys n H' := by
  rw [accTerm] at h
  split at h
  · obtain rfl := Except.ok.inj h
    exact hH.set hy _
  · obtain ⟨s, -, h⟩ := Res.bind_eq_ok.1 h
    obtain rfl := Except.ok.inj h
    exact hH.set hy _

theorem aget_mem {α : Type} {L : List α} {i : Nat} {a : α} (h : aget L i = .ok a) : a ∈ L := by
  rw [aget] at h
  cases hx : L[i]? with
  | none => rw [hx] at h; cases h
  | some b =>
    rw [hx] at h
    obtain rfl := Except.ok.inj h
    exact List.mem_of_getElem? hx

section

variable {var : FrobVar (ZMod q)} {term : JTerm q}

theorem goodKeys_new {p : Nat} {T : List (MonMap (ZMod q))} (hT : NonNegTable T) {ei : IVec}
    (hei : ∀ x ∈ ei, 0 ≤ x) {m N e : Nat} {fs : FrobState (ZMod q)} (hfs : GoodKeys D.n fs.H)
    {H : MonMap (CVec (ZMod q))} (h : frobNew var D p T ei m N e fs = .ok H) : GoodKeys D.n H := by
  rw [frobNew] at h
  split at h
  · obtain ⟨_, -, h⟩ := Res.bind_eq_ok.1 h
    obtain ⟨_, -, h⟩ := Res.bind_eq_ok.1 h
    obtain ⟨P, hP, h⟩ := Res.bind_eq_ok.1 h
    exact goodKeys_addTerms hei (hT P (aget_mem hP)) hfs h
  · obtain rfl := Except.ok.inj h
    exact hfs

theorem goodKeys_term {p e : Nat} {s s' : MonMap (CVec (ZMod q)) × CVec (ZMod q)} {t : IVec × CVec (ZMod q)}
    (ht : t.1.length = D.n + 1 ∧ NonNeg t.1) (hs : GoodKeys D.n s.1) (h : frobTerm var D p e s t = .ok s') :
    GoodKeys D.n s'.1 := by
  rw [frobTerm] at h
  obtain ⟨v, hv, h⟩ := Res.bind_eq_ok.1 h
  obtain ⟨r, -, h⟩ := Res.bind_eq_ok.1 h
  have hb := direction_inv ht.2 hv
  split at h
  · obtain rfl := Except.ok.inj h
    exact hs
  split at h
  · obtain ⟨y, hy, h⟩ := Res.bind_eq_ok.1 h
    obtain ⟨H, hH, h⟩ := Res.bind_eq_ok.1 h
    obtain rfl := Except.ok.inj h
    obtain ⟨h1, h2⟩ := hb.sub_nonneg hy
    exact goodKeys_acc hs ⟨by rw [h2, ht.1], h1⟩ hH
  · obtain ⟨_, -, h⟩ := Res.bind_eq_ok.1 h
    obtain ⟨_, -, h⟩ := Res.bind_eq_ok.1 h
    obtain ⟨_, -, h⟩ := Res.bind_eq_ok.1 h
    obtain rfl := Except.ok.inj h
    exact hs

theorem goodKeys_pass {p : Nat} {T : List (MonMap (ZMod q))} (hT : NonNegTable T) {ei : IVec}
    (hei : ∀ x ∈ ei, 0 ≤ x) {m N e : Nat} {fs fs' : FrobState (ZMod q)} (hfs : GoodKeys D.n fs.H)
    (h : frobPass var D p T ei m N e fs = .ok fs') : GoodKeys D.n fs'.H := by
  rw [frobPass] at h
  obtain ⟨H, hH, h⟩ := Res.bind_eq_ok.1 h
  obtain ⟨s, hs, h⟩ := Res.bind_eq_ok.1 h
  obtain rfl := Except.ok.inj h
  have hp := goodKeys_new hT hei hfs hH
  exact foldlM_keeps (fun s => GoodKeys D.n s.1) H (fun t ht => by simp at ht)
    (fun s t s' ht hs e => goodKeys_term (hp t ht) hs e) hs

theorem jfrz_frobTerm (hst : JFull solve D st) {p : Nat} (hp : 0 < p) (ht : TermStill st D.n p var term) (e : Nat) (s)
    {t : IVec × CVec (ZMod q)} (hk : t.1.length = D.n + 1 ∧ NonNeg t.1) :
    JFrz st (cFrobTerm D var term p e s t) (frobTerm var D p e s t) := by
  rw [cFrobTerm, frobTerm]
  refine JFrz.bind (JFrz.pureRes _) (fun v hv => ?_)
  have hb := direction_inv hk.2 hv
  have hl : (if D.n / p + 1 < e then p else p - D.n % p) ≤ p := by split <;> omega
  have hl0 : 0 < (if D.n / p + 1 < e then p else p - D.n % p) := by
    have := Nat.mod_lt D.n hp
    split <;> omega
  refine JFrz.bind (ht.frz _ _ _ _ hl hk.1 hb) (fun r hr => jfrz_ite (fun _ => JFrz.pure _) (fun _ =>
    jfrz_ite (fun _ => JFrz.pureRes _) (fun _ => ?_)))
  obtain ⟨h1, h2⟩ := ht.dest _ _ _ _ _ hl hl0 hk.1 hb hr
  exact JFrz.bind (jfrz_inclJ hst h1 h2) (fun _ _ => JFrz.pureRes _)

theorem jfrz_frobPass (hst : JFull solve D st) {p : Nat} (hp : 0 < p) (ht : TermStill st D.n p var term)
    {T : List (MonMap (ZMod q))} (hT : NonNegTable T) {ei : IVec} (hei : ∀ x ∈ ei, 0 ≤ x) (m N e : Nat)
    (fs : FrobState (ZMod q)) (hfs : GoodKeys D.n fs.H) :
    JFrz st (cFrobPass D var term p T ei m N e fs) (frobPass var D p T ei m N e fs) :=
  JFrz.bind (JFrz.pureRes _) (fun H hH => JFrz.bind (jfrz_foldlM H (fun s t hm =>
    jfrz_frobTerm hst hp ht e s (goodKeys_new hT hei hfs hH t hm)) _) (fun _ _ => JFrz.pure _))

theorem jfrz_frobSmall (hst : JFull solve D st) (p : Nat) (T) (ei : IVec) (m N e : Nat) (fact F G0) :
    JFrz st (cFrobSmall solve' D var p T ei m N e fact F G0) (frobSmall var solve D p T ei m N e fact F G0) := by
  rw [cFrobSmall, frobSmall]
  exact JFrz.bind (JFrz.pureRes _) (fun _ _ => JFrz.bind (JFrz.pureRes _) (fun _ _ => JFrz.bind (JFrz.pureRes _)
    (fun _ _ => JFrz.bind (JFrz.pureRes _) (fun _ _ => JFrz.bind (jfrz_finalJ hst _) (fun _ _ => JFrz.pureRes _)))))

theorem jfrz_frobLastPass (hst : JFull solve D st) (p : Nat) (T) (ei : IVec) (m N e : Nat) (s) :
    JFrz st (cFrobLastPass solve' D var p T ei m N e s) (frobLastPass var solve D p T ei m N e s) := by
  rw [cFrobLastPass, frobLastPass]
  exact JFrz.bind (JFrz.pureRes _) (fun _ _ => jfrz_ite (fun _ => JFrz.bind (jfrz_frobSmall hst _ _ _ _ _ _ _ _ _)
    (fun _ _ => JFrz.pure _)) (fun _ => JFrz.pure _))

theorem jfrz_frobFun (hst : JFull solve D st) {p : Nat} (ht : TermStill st D.n p var term)
    (hb : ∀ b ∈ D.basis, ∀ x ∈ b, (0 : Int) ≤ x) {T : List (MonMap (ZMod q))}
    (hT : ∀ k T', computeFpow D.f T k = .ok T' → NonNegTable T') (coord N : Nat) :
    JFrz st (cFrobFun solve' D var term p T coord N) (frobFun var solve D p T coord N) := by
  rw [cFrobFun, frobFun]
  refine JFrz.bind (JFrz.pureRes _) (fun _ _ => JFrz.bind (JFrz.pureRes _) (fun ei hei => JFrz.bind (JFrz.pureRes _)
    (fun T' hT' => JFrz.bind ?_ (fun _ _ => JFrz.bind (JFrz.pureRes _) (fun _ _ => JFrz.pure _)))))
  rw [cFrobCore, frobCore]
  refine JFrz.bind (JFrz.pureRes _) (fun _ _ => JFrz.bind (JFrz.pureRes _) (fun ei hei => jfrz_ite (fun _ =>
    JFrz.pureRes _) (fun hp => JFrz.bind (JFrz.pureRes _) (fun len _ => jfrz_ite (fun _ => JFrz.pureRes _) (fun _ => ?_)))))
  have hei0 := hb ei (aget_mem hei)
  exact JFrz.bind (jfrz_downTo (fun s => GoodKeys D.n s.H)
      (fun e s hs => jfrz_frobPass hst (by omega) ht (hT _ _ hT') hei0 _ _ _ _ hs)
      (fun e s s' hs h => goodKeys_pass (hT _ _ hT') hei0 hs h) _ _ _ (fun t ht => by simp at ht))
    (fun _ _ => JFrz.bind (jfrz_finalJ hst _) (fun _ _ => JFrz.bind (JFrz.pureRes _) (fun _ _ =>
      JFrz.bind (jfrz_downTo (fun _ => True) (fun e s _ => jfrz_frobLastPass hst _ _ _ _ _ _ _) (fun _ _ _ _ _ => trivial)
        _ _ _ trivial) (fun _ _ => JFrz.bind (JFrz.pureRes _) (fun _ _ => JFrz.pure _)))))

end

end Verif
