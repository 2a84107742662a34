import Verif.Spec.Cache
import Verif.Lemmas.Batch

/-! The dictionaries never change a result. -/

namespace Verif

open Spec

variable {q : Nat}

/-- Every stored value is the value the function would compute. -/
structure CacheOK (solve : Solver (ZMod q)) (D : DR (ZMod q)) (st : JCache q) : Prop where
  solveD : ∀ l x, st.solveD.lookup l = some x → solveJ solve D l = .ok x
  redD : ∀ v Ms, st.redD.find? v = some Ms → freshRedJ solve D v = .ok Ms
  redZD : ∀ v Ms, st.redZD.find? v = some Ms → freshRedJZ solve D v = .ok Ms
  inclD : ∀ u M, st.inclD.find? u = some M → inclMatJ D u = .ok M
  finalD : ∀ i M, st.finalD[i]? = some M → finalMatJ solve D (i + 1) = .ok M

/-- The method `x` returns what `y` says, from every good state, and leaves a good state. -/
def Sim (solve : Solver (ZMod q)) (D : DR (ZMod q)) {α : Type} (x : JM q α) (y : Res α) : Prop :=
  ∀ st, CacheOK solve D st →
    (∀ a, y = .ok a → ∃ st', x st = .ok (a, st') ∧ CacheOK solve D st') ∧
    (∀ e, y = .error e → x st = .error e)

variable {solve : Solver (ZMod q)} {D : DR (ZMod q)}

theorem Sim.pure {α : Type} (a : α) : Sim solve D (pure a) (.ok a) := by
  intro st h
  refine ⟨fun b hb => ?_, fun e he => by cases he⟩
  cases hb
  exact ⟨st, rfl, h⟩

theorem Sim.pureRes {α : Type} (y : Res α) : Sim solve D (JM.pureRes y) y := by
  intro st h
  refine ⟨fun b hb => ⟨st, ?_, h⟩, fun e he => ?_⟩
  · rw [JM.pureRes.eq_def, hb]
  · rw [JM.pureRes.eq_def, he]

theorem JM.bind_ok {α β : Type} {x : JM q α} {g : α → JM q β} {st st' : JCache q} {a : α}
    (h : x st = .ok (a, st')) : (x >>= g) st = g a st' := by
  show (x st >>= fun p => g p.1 p.2) = _
  rw [h]; rfl

theorem JM.bind_error {α β : Type} {x : JM q α} {g : α → JM q β} {st : JCache q} {e : Fail}
    (h : x st = .error e) : (x >>= g) st = .error e := by
  show (x st >>= fun p => g p.1 p.2) = _
  rw [h]; rfl

theorem Sim.bind {α β : Type} {x : JM q α} {y : Res α} {g : α → JM q β} {k : α → Res β}
    (h : Sim solve D x y) (hg : ∀ a, Sim solve D (g a) (k a)) : Sim solve D (x >>= g) (y >>= k) := by
  intro st hst
  obtain ⟨h1, h2⟩ := h st hst
  cases y with
  | error e =>
    refine ⟨fun a ha => (by cases ha), fun e' he => ?_⟩
    cases he
    exact JM.bind_error (h2 _ rfl)
  | ok a =>
    obtain ⟨st', e1, hst'⟩ := h1 a rfl
    rw [Res.bind_ok]
    obtain ⟨h3, h4⟩ := hg a st' hst'
    refine ⟨fun b hb => ?_, fun e he => ?_⟩
    · obtain ⟨st2, e2, h5⟩ := h3 b hb
      exact ⟨st2, by rw [JM.bind_ok e1]; exact e2, h5⟩
    · rw [JM.bind_ok e1]; exact h4 e he

/-- The same with a hypothesis on the value. -/
theorem Sim.bind' {α β : Type} {x : JM q α} {y : Res α} {g : α → JM q β} {k : α → Res β}
    (h : Sim solve D x y) (hg : ∀ a, y = .ok a → Sim solve D (g a) (k a)) :
    Sim solve D (x >>= g) (y >>= k) := by
  cases y with
  | error e =>
    intro st hst
    refine ⟨fun a ha => (by cases ha), fun e' he => ?_⟩
    cases he
    exact JM.bind_error ((h st hst).2 _ rfl)
  | ok a =>
    intro st hst
    obtain ⟨st', e1, hst'⟩ := (h st hst).1 a rfl
    rw [Res.bind_ok]
    obtain ⟨h3, h4⟩ := hg a rfl st' hst'
    refine ⟨fun b hb => ?_, fun e he => ?_⟩
    · obtain ⟨st2, e2, h5⟩ := h3 b hb
      exact ⟨st2, by rw [JM.bind_ok e1]; exact e2, h5⟩
    · rw [JM.bind_ok e1]; exact h4 e he

/-- Storing something. -/
theorem Sim.modify {g : JCache q → JCache q} (h : ∀ st, CacheOK solve D st → CacheOK solve D (g st)) :
    Sim solve D (modify g) (.ok ()) := by
  intro st hst
  refine ⟨fun b hb => ⟨g st, rfl, h st hst⟩, fun e he => by cases he⟩

theorem cacheOK_empty : CacheOK solve D (JCache.empty q) where
  solveD := by intro l x h; cases h
  redD := by intro l x h; cases h
  redZD := by intro l x h; cases h
  inclD := by intro l x h; cases h
  finalD := by intro i M h; simp [JCache.empty] at h

theorem find?_erase {V : Type} (m : MonMap V) (k k' : IVec) (x : V) (h : (m.erase k).find? k' = some x) :
    m.find? k' = some x := by
  induction m with
  | nil => cases h
  | cons e m ih =>
    obtain ⟨k0, v0⟩ := e
    rw [MonMap.erase, List.filter_cons] at h
    rw [MonMap.find?_cons]
    by_cases hk : k0 = k
    · have hd : decide (k0 ≠ k) = false := by simp [hk]
      simp only [hd] at h
      have := ih h
      by_cases hk' : k' = k0
      · exfalso
        have hno : ∀ m : MonMap V, (m.erase k).find? k = none := by
          intro m
          induction m with
          | nil => rfl
          | cons e m ih =>
            rw [MonMap.erase, List.filter_cons]
            split
            · rename_i hne
              have hne : e.1 ≠ k := of_decide_eq_true hne
              rw [MonMap.find?_cons, if_neg (Ne.symm hne)]
              exact ih
            · exact ih
        have h2 := hno m
        rw [hk', hk] at h
        rw [MonMap.erase] at h2
        simp only [Bool.false_eq_true, if_false] at h
        rw [h2] at h
        cases h
      · rw [if_neg hk']; exact this
    · have hd : decide (k0 ≠ k) = true := by simp [hk]
      simp only [hd, if_true] at h
      rw [MonMap.find?_cons] at h
      by_cases hk' : k' = k0
      · rw [if_pos hk'] at h ⊢; exact h
      · rw [if_neg hk'] at h ⊢; exact ih h

theorem sim_solveJ (l : Int) : Sim solve D (cSolveJ solve D l) (solveJ solve D l) := by
  intro st h
  rw [cSolveJ]
  cases hf : st.solveD.lookup l with
  | some x =>
    have := h.solveD l x hf
    refine ⟨fun a ha => ⟨st, ?_, h⟩, fun e he => ?_⟩
    · rw [this] at ha; cases ha; rfl
    · rw [this] at he; cases he
  | none =>
    refine ⟨fun a ha => ?_, fun e he => ?_⟩
    · simp only [ha]
      refine ⟨_, rfl, ⟨fun l' x hx => ?_, h.redD, h.redZD, h.inclD, h.finalD⟩⟩
      rw [List.lookup_cons] at hx
      by_cases hl : l' = l
      · subst hl
        simp at hx
        rw [ha, hx]
      · simp only [beq_eq_false_iff_ne.2 hl] at hx
        exact h.solveD l' x hx
    · simp only [he]

theorem sim_redJ (v : IVec) : Sim solve D (cRedJ solve D v) (freshRedJ solve D v) := by
  intro st h
  rw [cRedJ]
  cases hf : st.redD.find? v with
  | some x =>
    have := h.redD v x hf
    refine ⟨fun a ha => ⟨st, ?_, h⟩, fun e he => ?_⟩
    · rw [this] at ha; cases ha; rfl
    · rw [this] at he; cases he
  | none =>
    have key : Sim solve D (do
      let top ← cSolveJ solve D D.topLevel
      let Ms ← JM.pureRes (redMatJ D top.2 v)
      modify (fun st => { st with redD := st.redD.set v Ms })
      pure Ms : JM q _) (solveJ solve D D.topLevel >>= fun top => redMatJ D top.2 v >>= fun Ms =>
        (.ok () : Res Unit) >>= fun _ => .ok Ms) := by
      refine Sim.bind' (sim_solveJ _) (fun top ht => Sim.bind' (Sim.pureRes _) (fun Ms hM =>
        Sim.bind (Sim.modify (fun st h => ?_)) (fun _ => Sim.pure Ms)))
      refine ⟨h.solveD, fun v' Ms' hv' => ?_, h.redZD, h.inclD, h.finalD⟩
      rw [MonMap.find?_set] at hv'
      split at hv'
      · rename_i hvv
        cases hv'
        rw [hvv, freshRedJ, ht, Res.bind_ok, hM]
      · exact h.redD v' Ms' hv'
    have e : freshRedJ solve D v = (solveJ solve D D.topLevel >>= fun top => redMatJ D top.2 v >>= fun Ms =>
        (.ok () : Res Unit) >>= fun _ => .ok Ms) := by
      rw [freshRedJ]
      cases solveJ solve D D.topLevel with
      | error e => rfl
      | ok top =>
        simp only [Res.bind_ok]
        cases redMatJ D top.2 v <;> rfl
    rw [e]
    exact key st h

theorem sim_redJZ (sm : Bool) (v : IVec) : Sim solve D (cRedJZ solve D sm v) (freshRedJZ solve D v) := by
  have hset : ∀ Ms, freshRedJ solve D v = .ok Ms → ∀ st, CacheOK solve D st →
      CacheOK solve D { st with redZD := st.redZD.set v (fun i => (Ms i).map liftZ) } := by
    intro Ms hM st h
    refine ⟨h.solveD, h.redD, fun v' Ms' hv' => ?_, h.inclD, h.finalD⟩
    rw [MonMap.find?_set] at hv'
    split at hv'
    · rename_i hvv
      cases hv'
      rw [hvv, freshRedJZ, hM, Res.bind_ok, Res.pure_eq]
    · exact h.redZD v' Ms' hv'
  intro st h
  rw [cRedJZ]
  cases hf : st.redZD.find? v with
  | some x =>
    have := h.redZD v x hf
    refine ⟨fun a ha => ⟨st, ?_, h⟩, fun e he => ?_⟩
    · rw [this] at ha; cases ha; rfl
    · rw [this] at he; cases he
  | none =>
    cases hf2 : st.redD.find? v with
    | some Ms =>
      have hM := h.redD v Ms hf2
      refine ⟨fun a ha => ?_, fun e he => ?_⟩
      · rw [freshRedJZ, hM, Res.bind_ok, Res.pure_eq] at ha
        cases ha
        exact ⟨_, rfl, hset Ms hM st h⟩
      · rw [freshRedJZ, hM] at he; cases he
    | none =>
      have key : Sim solve D (do
          let Ms ← cRedJ solve D v
          modify (fun st => { st with redZD := st.redZD.set v (fun i => (Ms i).map liftZ) })
          if sm then modify (fun st => { st with redD := st.redD.erase v })
          pure (fun i => (Ms i).map liftZ) : JM q _)
          (freshRedJ solve D v >>= fun Ms => (.ok () : Res Unit) >>= fun _ => (.ok () : Res Unit) >>= fun _ =>
            .ok (fun i => (Ms i).map liftZ)) := by
        refine Sim.bind' (sim_redJ _) (fun Ms hM => Sim.bind (Sim.modify (hset Ms hM)) (fun _ =>
          ?_))
        cases sm with
        | false => exact Sim.pure _
        | true =>
          refine Sim.bind ?_ (fun _ => Sim.pure _)
          exact Sim.modify (fun st h => ⟨h.solveD, fun v' Ms' hv' => h.redD v' Ms' (find?_erase _ _ _ _ hv'),
            h.redZD, h.inclD, h.finalD⟩)
      have e : freshRedJZ solve D v = (freshRedJ solve D v >>= fun Ms => (.ok () : Res Unit) >>= fun _ =>
          (.ok () : Res Unit) >>= fun _ => .ok (fun i => (Ms i).map liftZ)) := by
        rw [freshRedJZ]
        cases freshRedJ solve D v <;> rfl
      rw [e]
      exact key st h

theorem getReductionMatrixJ_fresh (u v : IVec) : getReductionMatrixJ solve D u v = (do
    checkUV D u v
    let Ms ← freshRedJ solve D v
    pure (evalRed D.n Ms u)) := by
  rw [getReductionMatrixJ, freshRedJ]
  cases checkUV D u v with
  | error e => rfl
  | ok _ =>
    simp only [Res.bind_ok]
    cases solveJ solve D D.topLevel <;> rfl

theorem sim_getRedJ (u v : IVec) : Sim solve D (cGetRedJ solve D u v) (getReductionMatrixJ solve D u v) := by
  rw [getReductionMatrixJ_fresh]
  exact Sim.bind (Sim.pureRes _) (fun _ => Sim.bind (sim_redJ v) (fun _ => Sim.pure _))

theorem sim_getRedJZ (sm : Bool) (u v : IVec) :
    Sim solve D (cGetRedJZ solve D sm u v) (getReductionMatrixJZ solve D u v) :=
  Sim.bind (Sim.pureRes _) (fun _ => Sim.bind (sim_redJZ sm v) (fun _ => Sim.pure _))

theorem sim_reduceJ (u v : IVec) (G) : Sim solve D (cReduceJ solve D u v G) (reduceVectorJ solve D u v G) := by
  rw [reduceVectorJ_fresh]
  exact Sim.bind (Sim.pureRes _) (fun _ => Sim.bind (sim_redJ v) (fun _ => Sim.pureRes _))

theorem sim_reduceJPoly (u v : IVec) (k G) :
    Sim solve D (cReduceJPoly solve D u v k G) (reduceVectorJPoly solve D u v k G) :=
  Sim.bind (Sim.pureRes _) (fun _ => Sim.bind (sim_redJ v) (fun _ => Sim.pureRes _))

theorem sim_reduceJZ (sm : Bool) (u v : IVec) (G) :
    Sim solve D (cReduceJZ solve D sm u v G) (reduceVectorJZ solve D u v G) :=
  Sim.bind (Sim.pureRes _) (fun _ => Sim.bind (sim_redJZ sm v) (fun _ => Sim.pureRes _))

theorem sim_reduceJPolyZ (sm : Bool) (u v : IVec) (k G) :
    Sim solve D (cReduceJPolyZ solve D sm u v k G) (reduceVectorJPolyZ solve D u v k G) :=
  Sim.bind (Sim.pureRes _) (fun _ => Sim.bind (sim_redJZ sm v) (fun _ => Sim.pureRes _))

theorem sim_inclJ (u : IVec) : Sim solve D (cInclJ D u) (inclMatJ D u) := by
  intro st h
  rw [cInclJ]
  by_cases hs : sumVec u = D.n
  · rw [if_neg (by simpa using hs)]
    cases hf : st.inclD.find? u with
    | some x =>
      have := h.inclD u x hf
      refine ⟨fun a ha => ⟨st, ?_, h⟩, fun e he => ?_⟩
      · rw [this] at ha; cases ha; rfl
      · rw [this] at he; cases he
    | none =>
      refine ⟨fun a ha => ?_, fun e he => ?_⟩
      · simp only [ha]
        refine ⟨_, rfl, ⟨h.solveD, h.redD, h.redZD, fun u' M' hu' => ?_, h.finalD⟩⟩
        rw [MonMap.find?_set] at hu'
        split at hu'
        · rename_i huu
          cases hu'
          rw [huu, ha]
        · exact h.inclD u' M' hu'
      · simp only [he]
  · rw [if_pos hs]
    have : inclMatJ D u = .error .assertFail := by
      rw [inclMatJ, decide_eq_false hs, check_false]; rfl
    refine ⟨fun a ha => ?_, fun e he => ?_⟩
    · rw [this] at ha; cases ha
    · rw [this] at he; cases he; rfl

theorem sim_finalBody (Mlow : CMat (ZMod q)) (k : Nat) :
    Sim solve D (cFinalBody solve D Mlow k) (finalMatStep solve D Mlow k) := by
  rw [cFinalBody, finalMatStep]
  exact Sim.bind (Sim.pureRes _) (fun _ => Sim.bind (Sim.pureRes _) (fun _ => Sim.bind (Sim.pureRes _) (fun _ =>
    Sim.bind (Sim.pureRes _) (fun _ => Sim.bind (sim_solveJ _) (fun _ => Sim.bind (Sim.pureRes _) (fun _ =>
    Sim.pure _))))))

/-- `x` leaves the final matrices alone. -/
def KeepsFinal {α : Type} (x : JM q α) : Prop := ∀ st a st', x st = .ok (a, st') → st'.finalD = st.finalD

theorem KeepsFinal.pure {α : Type} (a : α) : KeepsFinal (pure a : JM q α) := by
  intro st b st' h
  cases h; rfl

theorem KeepsFinal.pureRes {α : Type} (y : Res α) : KeepsFinal (JM.pureRes y : JM q α) := by
  intro st b st' h
  rw [JM.pureRes.eq_def] at h
  cases y with
  | ok a => cases h; rfl
  | error e => cases h

theorem KeepsFinal.bind {α β : Type} {x : JM q α} {g : α → JM q β} (h : KeepsFinal x)
    (hg : ∀ a, KeepsFinal (g a)) : KeepsFinal (x >>= g) := by
  intro st b st' he
  cases hx : x st with
  | error e => rw [JM.bind_error hx] at he; cases he
  | ok p =>
    obtain ⟨a, st1⟩ := p
    rw [JM.bind_ok hx] at he
    rw [hg a st1 b st' he, h st a st1 hx]

theorem keepsFinal_solveJ (l : Int) : KeepsFinal (cSolveJ solve D l) := by
  intro st b st' h
  rw [cSolveJ] at h
  split at h
  · cases h; rfl
  · split at h
    · cases h; rfl
    · cases h

theorem keepsFinal_body (Mlow : CMat (ZMod q)) (k : Nat) : KeepsFinal (cFinalBody solve D Mlow k) := by
  rw [cFinalBody]
  exact .bind (.pureRes _) (fun _ => .bind (.pureRes _) (fun _ => .bind (.pureRes _) (fun _ =>
    .bind (.pureRes _) (fun _ => .bind (keepsFinal_solveJ _) (fun _ => .bind (.pureRes _) (fun _ => .pure _))))))

/-- The matrices stored are the first ones. -/
theorem finalStep_ok (k : Nat) (st : JCache q) (h : CacheOK solve D st) (hl : st.finalD.length = k) :
    (∀ M, finalMatJ solve D (k + 1) = .ok M → ∃ st', cFinalStep solve D (k + 1) st = .ok ((), st') ∧
      CacheOK solve D st' ∧ st'.finalD = st.finalD ++ [M]) ∧
    (∀ e, finalMatJ solve D (k + 1) = .error e → cFinalStep solve D (k + 1) st = .error e) := by
  have happ : ∀ (st : JCache q), CacheOK solve D st → st.finalD.length = k → ∀ M,
      finalMatJ solve D (k + 1) = .ok M → CacheOK solve D { st with finalD := st.finalD ++ [M] } := by
    intro st h hl M hM
    refine ⟨h.solveD, h.redD, h.redZD, h.inclD, fun i M' hi => ?_⟩
    simp only at hi
    rw [List.getElem?_append] at hi
    split at hi
    · exact h.finalD i M' hi
    · rename_i hge
      have : i = k := by
        by_contra hne
        rw [List.getElem?_eq_none (by simp; omega)] at hi
        cases hi
      subst this
      rw [hl, Nat.sub_self] at hi
      simp at hi
      rw [← hi]; exact hM
  by_cases hkn : D.n < k + 1
  · have e1 : cFinalStep solve D (k + 1) st = .error .assertFail := by
      rw [cFinalStep, if_pos (Or.inr hkn)]
    have e2 : finalMatJ solve D (k + 1) = .error .assertFail := by
      rcases k with _ | k
      · rw [finalMatJ, decide_eq_false (by omega), check_false]; rfl
      · rw [finalMatJ, decide_eq_false (by omega), check_false]; rfl
    refine ⟨fun M hM => ?_, fun e he => ?_⟩
    · rw [e2] at hM; cases hM
    · rw [e2] at he; cases he; exact e1
  rcases k with _ | k
  · have e2 : finalMatJ solve D (0 + 1) = finalMat1 D := by
      rw [finalMatJ, decide_eq_true (by omega), check_true]; rfl
    rw [cFinalStep, if_neg (by omega), if_pos rfl]
    refine ⟨fun M hM => ?_, fun e he => ?_⟩
    · rw [e2] at hM
      rw [hM]
      exact ⟨_, rfl, happ st h hl M (by rw [e2]; exact hM), rfl⟩
    · rw [e2] at he
      rw [he]
  · have hlt : k < st.finalD.length := by omega
    have hget : st.finalD[k + 1 + 1 - 2]? = some st.finalD[k] := by
      rw [show k + 1 + 1 - 2 = k by omega]; exact List.getElem?_eq_getElem hlt
    have hlow := h.finalD k _ (List.getElem?_eq_getElem hlt)
    have e2 : finalMatJ solve D (k + 1 + 1) = finalMatStep solve D st.finalD[k] (k + 2) := by
      rw [finalMatJ, decide_eq_true (by omega), check_true, Res.bind_ok, hlow, Res.bind_ok]
    generalize st.finalD[k] = Mlow at hget hlow e2
    have hcf : cFinalStep solve D (k + 1 + 1) st = (do
        let M ← cFinalBody solve D Mlow (k + 1 + 1)
        modify (fun st => { st with finalD := st.finalD ++ [M] }) : JM q Unit) st := by
      rw [cFinalStep, if_neg (by omega), if_neg (by omega), hget]
    obtain ⟨s1, s2⟩ := sim_finalBody (solve := solve) (D := D) Mlow (k + 1 + 1) st h
    rw [hcf]
    refine ⟨fun M hM => ?_, fun e he => ?_⟩
    · obtain ⟨st1, e1, h1⟩ := s1 M (by rw [← e2]; exact hM)
      have hk := keepsFinal_body _ _ _ _ _ e1
      rw [JM.bind_ok e1]
      refine ⟨_, rfl, happ st1 h1 (by rw [hk]; exact hl) M hM, congrArg (· ++ [M]) hk⟩
    · rw [JM.bind_error (s2 e (by rw [← e2]; exact he))]

theorem finalMatJ_pos {k : Nat} {M : CMat (ZMod q)} (h : finalMatJ solve D k = .ok M) : 1 ≤ k := by
  rcases k with _ | k
  · cases h
  · omega

theorem finalMatJ_below {k : Nat} {M : CMat (ZMod q)} (i : Nat) (hk : 1 ≤ k)
    (h : finalMatJ solve D (k + i) = .ok M) : ∃ M', finalMatJ solve D k = .ok M' := by
  induction i generalizing M with
  | zero => exact ⟨M, h⟩
  | succ i ih =>
    obtain ⟨j, rfl⟩ : ∃ j, k = j + 1 := ⟨k - 1, by omega⟩
    rw [show j + 1 + (i + 1) = (j + i) + 2 by omega, finalMatJ] at h
    rw [Res.bind_eq_ok] at h
    obtain ⟨_, _, h⟩ := h
    rw [Res.bind_eq_ok] at h
    obtain ⟨M1, h1, _⟩ := h
    exact ih (by rw [show j + 1 + i = j + i + 1 by omega]; exact h1)

theorem finalMatJ_error {k : Nat} {e : Fail} (i : Nat) (hk : 1 ≤ k) (hn : k + i ≤ D.n)
    (h : finalMatJ solve D k = .error e) : finalMatJ solve D (k + i) = .error e := by
  induction i with
  | zero => exact h
  | succ i ih =>
    obtain ⟨j, rfl⟩ : ∃ j, k = j + 1 := ⟨k - 1, by omega⟩
    rw [show j + 1 + (i + 1) = (j + i) + 2 by omega, finalMatJ, decide_eq_true (by omega), check_true,
      Res.bind_ok, show j + i + 1 = j + 1 + i by omega, ih (by omega), Res.bind_error]

theorem finalLoop_ok (cnt : Nat) : ∀ (k : Nat) (st : JCache q), CacheOK solve D st → st.finalD.length = k →
    k + cnt ≤ D.n →
    ((cnt = 0 ∨ ∃ M, finalMatJ solve D (k + cnt) = .ok M) → ∃ st', cFinalLoop solve D k cnt st = .ok ((), st') ∧
      CacheOK solve D st' ∧ st'.finalD.length = k + cnt) ∧
    (∀ e, 1 ≤ cnt → finalMatJ solve D (k + cnt) = .error e → cFinalLoop solve D k cnt st = .error e) := by
  induction cnt with
  | zero =>
    intro k st h hl _
    exact ⟨fun _ => ⟨st, rfl, h, hl⟩, fun e h0 => absurd h0 (by omega)⟩
  | succ cnt ih =>
    intro k st h hl hn
    obtain ⟨s1, s2⟩ := finalStep_ok k st h hl
    rw [cFinalLoop]
    cases hk : finalMatJ solve D (k + 1) with
    | error e =>
      have := finalMatJ_error (solve := solve) cnt (by omega : 1 ≤ k + 1) (by omega) hk
      rw [show k + 1 + cnt = k + (cnt + 1) by omega] at this
      rw [this]
      refine ⟨fun h0 => ?_, fun e' _ he => ?_⟩
      · rcases h0 with h0 | ⟨M, h0⟩
        · omega
        · cases h0
      · cases he
        exact JM.bind_error (s2 _ hk)
    | ok M =>
      obtain ⟨st1, e1, h1, hf1⟩ := s1 M hk
      obtain ⟨i1, i2⟩ := ih (k + 1) st1 h1 (by rw [hf1, List.length_append]; simp [hl]) (by omega)
      rw [JM.bind_ok e1]
      rw [show k + 1 + cnt = k + (cnt + 1) by omega] at i1 i2
      refine ⟨fun h0 => ?_, fun e he1 he => ?_⟩
      · rcases h0 with h0 | h0
        · omega
        · exact i1 (Or.inr h0)
      · rcases Nat.eq_zero_or_pos cnt with hc | hc
        · subst hc
          rw [hk] at he; cases he
        · exact i2 e hc he

theorem sim_finalJ (k : Nat) : Sim solve D (cFinalJ solve D k) (finalMatJ solve D k) := by
  intro st h
  rw [cFinalJ]
  by_cases hk : D.n < k ∨ k = 0
  · have : finalMatJ solve D k = .error .assertFail := by
      rcases k with _ | _ | k
      · rfl
      · rw [finalMatJ, decide_eq_false (by omega), check_false]; rfl
      · rw [finalMatJ, decide_eq_false (by omega), check_false]; rfl
    rw [if_pos hk, this]
    exact ⟨fun a ha => (by cases ha), fun e he => (by cases he; rfl)⟩
  rw [if_neg hk]
  by_cases hl : k ≤ st.finalD.length
  · -- already stored
    rw [show k - st.finalD.length = 0 by omega]
    have hlt : k - 1 < st.finalD.length := by omega
    have hg := List.getElem?_eq_getElem hlt
    have hM := h.finalD _ _ hg
    rw [show k - 1 + 1 = k by omega] at hM
    rw [hM]
    refine ⟨fun a ha => ?_, fun e he => (by cases he)⟩
    cases ha
    refine ⟨st, ?_, h⟩
    rw [cFinalLoop, JM.bind_ok (a := ()) (st' := st) rfl, JM.bind_ok (a := st) (st' := st) rfl, hg]
    rfl
  · obtain ⟨l1, l2⟩ := finalLoop_ok (solve := solve) (k - st.finalD.length) st.finalD.length st h rfl (by omega)
    rw [show st.finalD.length + (k - st.finalD.length) = k by omega] at l1 l2
    refine ⟨fun a ha => ?_, fun e he => ?_⟩
    · obtain ⟨st1, e1, h1, hl1⟩ := l1 (Or.inr ⟨a, ha⟩)
      refine ⟨st1, ?_, h1⟩
      have hlt : k - 1 < st1.finalD.length := by omega
      have hg := List.getElem?_eq_getElem hlt
      have hM := h1.finalD _ _ hg
      rw [show k - 1 + 1 = k by omega, ha] at hM
      rw [JM.bind_ok e1, JM.bind_ok (a := st1) (st' := st1) rfl, hg, Except.ok.inj hM]
      rfl
    · exact JM.bind_error (l2 e (by omega) he)

theorem sim_mtbLoop (cnt : Nat) : ∀ (w : IVec) (G : CVec (ZMod q)),
    Sim solve D (cMtbLoop solve D cnt w G) (mtbLoop solve D cnt w G) := by
  induction cnt with
  | zero => intro w G; exact Sim.pure _
  | succ cnt ih =>
    intro w G
    exact Sim.bind (Sim.pureRes _) (fun _ => Sim.bind (Sim.pureRes _) (fun _ => Sim.bind (sim_getRedJ _ _) (fun _ =>
      Sim.bind (Sim.pureRes _) (fun _ => ih _ _))))

theorem sim_monomialJ (u : IVec) : Sim solve D (cMonomialJ solve D u) (monomialToBasisJ solve D u) := by
  rw [cMonomialJ, monomialToBasisJ]
  refine Sim.bind (Sim.pureRes _) (fun _ => Sim.bind (Sim.pureRes _) (fun _ => ?_))
  simp only
  split
  · exact Sim.pureRes _
  refine Sim.bind (Sim.pureRes _) (fun _ => ?_)
  split
  · exact Sim.bind (Sim.pureRes _) (fun _ => Sim.bind (Sim.pureRes _) (fun _ => Sim.bind (Sim.pureRes _) (fun _ =>
      Sim.bind (Sim.pureRes _) (fun _ => Sim.bind (Sim.pureRes _) (fun _ => Sim.bind (sim_mtbLoop _ _ _) (fun _ =>
      Sim.bind (Sim.pureRes _) (fun _ => Sim.bind (sim_inclJ _) (fun _ => Sim.bind (Sim.pureRes _) (fun _ =>
      Sim.bind (sim_finalJ _) (fun _ => Sim.pureRes _))))))))))
  · exact Sim.bind (Sim.pureRes _) (fun _ => Sim.bind (Sim.pureRes _) (fun _ => Sim.bind (Sim.pureRes _) (fun _ =>
      Sim.bind (sim_finalJ _) (fun _ => Sim.pureRes _))))

theorem sim_forM {α : Type} {x : α → JM q PUnit} {y : α → Res PUnit} (h : ∀ a, Sim solve D (x a) (y a)) (L : List α) :
    Sim solve D (L.forM x) (L.forM y) := by
  induction L with
  | nil => exact Sim.pure _
  | cons a L ih =>
    exact Sim.bind (h a) (fun _ => ih)

theorem sim_everything (sm : Bool) : Sim solve D (JCall.run solve D sm .everything)
    (JCall.value solve D .everything) := by
  have hb : ∀ v, Sim solve D (do
      let _ ← cRedJ solve D v
      let _ ← cRedJZ solve D sm v
      pure () : JM q PUnit) (do let _ ← freshRedJ solve D v; pure ()) := by
    intro v
    have e : (do let _ ← freshRedJ solve D v; pure () : Res PUnit) =
        (do let _ ← freshRedJ solve D v; let _ ← freshRedJZ solve D v; pure ()) := by
      rw [freshRedJZ]
      cases freshRedJ solve D v <;> rfl
    rw [e]
    exact Sim.bind (sim_redJ v) (fun _ => Sim.bind (sim_redJZ sm v) (fun _ => Sim.pure _))
  have e : JCall.run solve D sm .everything = (do
      let Ld ← JM.pureRes (D.list D.d)
      Ld.forM (fun v => do
        let _ ← cRedJ solve D v
        let _ ← cRedJZ solve D sm v
        pure ())
      let Ln ← JM.pureRes (D.list D.n)
      Ln.forM (fun u => do
        let _ ← cInclJ D u
        pure ())
      let _ ← cFinalJ solve D D.n
      pure .unit : JM q (JOut q)) := by
    simp only [JCall.run, cEverythingJ, bind_assoc, pure_bind]
  rw [e, JCall.value]
  exact Sim.bind (Sim.pureRes _) (fun _ => Sim.bind (sim_forM hb _) (fun _ => Sim.bind (Sim.pureRes _) (fun _ =>
    Sim.bind (sim_forM (fun u => Sim.bind (sim_inclJ u) (fun _ => Sim.pure _)) _) (fun _ =>
    Sim.bind (sim_finalJ _) (fun _ => Sim.pure _)))))

theorem sim_call (sm : Bool) (c : JCall q) : Sim solve D (c.run solve D sm) (c.value solve D) := by
  cases c with
  | solve l => exact Sim.bind (sim_solveJ l) (fun _ => Sim.pure _)
  | mat u v => exact Sim.bind (sim_getRedJ u v) (fun _ => Sim.pure _)
  | matZ u v => exact Sim.bind (sim_getRedJZ sm u v) (fun _ => Sim.pure _)
  | red u v G => exact Sim.bind (sim_reduceJ u v G) (fun _ => Sim.pure _)
  | redPoly u v k G => exact Sim.bind (sim_reduceJPoly u v k G) (fun _ => Sim.pure _)
  | redZ u v G => exact Sim.bind (sim_reduceJZ sm u v G) (fun _ => Sim.pure _)
  | redPolyZ u v k G => exact Sim.bind (sim_reduceJPolyZ sm u v k G) (fun _ => Sim.pure _)
  | incl u => exact Sim.bind (sim_inclJ u) (fun _ => Sim.pure _)
  | final k => exact Sim.bind (sim_finalJ k) (fun _ => Sim.pure _)
  | monomial u => exact Sim.bind (sim_monomialJ u) (fun _ => Sim.pure _)
  | everything => exact sim_everything sm

theorem sim_calls (sm : Bool) (cs : List (JCall q)) :
    Sim solve D (runCalls solve D sm cs) (cs.mapM (fun c => c.value solve D)) := by
  induction cs with
  | nil => exact Sim.pure _
  | cons c cs ih =>
    rw [List.mapM_cons]
    exact Sim.bind (sim_call sm c) (fun _ => Sim.bind ih (fun _ => Sim.pure _))

theorem Sim.map_fst {α : Type} {x : JM q α} {y : Res α} (h : Sim solve D x y) {st : JCache q}
    (hst : CacheOK solve D st) : (x st).map Prod.fst = y := by
  obtain ⟨h1, h2⟩ := h st hst
  cases y with
  | ok a => obtain ⟨st', e, _⟩ := h1 a rfl; rw [e]; rfl
  | error e => rw [h2 e rfl]; rfl

end Verif
