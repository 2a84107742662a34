import Verif.Lemmas.Cache
import Verif.Spec.CacheFrob

/-! The Frobenius functions with the dictionaries return the values of those without. -/

namespace Verif

open Spec

variable {q : Nat} {solve : Solver (ZMod q)} {D : DR (ZMod q)}

theorem sim_ite {α : Type} {c : Prop} [Decidable c] {x x' : JM q α} {y y' : Res α} (h : c → Sim solve D x y)
    (h' : ¬ c → Sim solve D x' y') : Sim solve D (if c then x else x') (if c then y else y') := by
  by_cases hc : c
  · rw [if_pos hc, if_pos hc]; exact h hc
  · rw [if_neg hc, if_neg hc]; exact h' hc

theorem sim_foldlM {α σ : Type} {x : σ → α → JM q σ} {y : σ → α → Res σ} (h : ∀ s a, Sim solve D (x s a) (y s a))
    (L : List α) : ∀ s, Sim solve D (L.foldlM x s) (L.foldlM y s) := by
  induction L with
  | nil => intro s; exact Sim.pure _
  | cons a L ih => intro s; exact Sim.bind (h s a) (fun s' => ih s')

theorem sim_downTo {σ : Type} {x : Nat → σ → JM q σ} {y : Nat → σ → Res σ} (h : ∀ i s, Sim solve D (x i s) (y i s))
    (lo n : Nat) : ∀ s, Sim solve D (cDownToJ lo x n s) (downTo lo y n s) := by
  induction n with
  | zero => intro s; exact Sim.pure _
  | succ n ih =>
    intro s
    rw [cDownToJ, downTo]
    exact Sim.bind (h _ s) (fun s' => ih s')

theorem sim_redSteps {V : Type} {one : IVec → IVec → V → JM q V} {one' : IVec → IVec → V → Res V}
    (h : ∀ a b G, Sim solve D (one a b G) (one' a b G)) (p : Nat) (r : Int) (u v : IVec) (cnt : Nat) :
    ∀ i dest G, Sim solve D (cRedSteps one p r u v i cnt dest G) (redSteps one' p r u v i cnt dest G) := by
  induction cnt with
  | zero => intro i dest G; exact Sim.pure _
  | succ cnt ih =>
    intro i dest G
    rw [cRedSteps, redSteps]
    exact Sim.bind (Sim.pureRes _) (fun _ => Sim.bind (Sim.pureRes _) (fun _ => Sim.bind (Sim.pureRes _) (fun _ =>
      Sim.bind (h _ _ _) (fun _ => ih _ _ _))))

theorem sim_termRed {V : Type} {one : IVec → IVec → V → JM q V} {one' : IVec → IVec → V → Res V}
    {batch : IVec → IVec → Int → V → JM q V} {batch' : IVec → IVec → Int → V → Res V}
    (h : ∀ a b G, Sim solve D (one a b G) (one' a b G)) (hb : ∀ a b k G, Sim solve D (batch a b k G) (batch' a b k G))
    (kind : LoopKind) (p : Nat) (r : Int) (last : Nat) (u v : IVec) (G : V) :
    Sim solve D (cTermRed one batch kind p r last u v G) (termRed one' batch' kind p r last u v G) := by
  rw [cTermRed, termRed]
  exact sim_ite (fun _ => Sim.bind (Sim.pureRes _) (fun _ => Sim.bind (Sim.pureRes _) (fun _ =>
    Sim.bind (Sim.pureRes _) (fun _ => Sim.bind (Sim.pureRes _) (fun _ => Sim.bind (Sim.pureRes _) (fun _ =>
    Sim.bind (Sim.pureRes _) (fun _ => Sim.bind (Sim.pureRes _) (fun _ => Sim.bind (hb _ _ _ _) (fun _ =>
    sim_redSteps h _ _ _ _ _ _ _ _)))))))))
    (fun _ => sim_redSteps h _ _ _ _ _ _ _ _)

theorem sim_oneP (kind : LoopKind) (dest y : IVec) (G) :
    Sim solve D (cOneP solve D kind dest y G) (oneP solve D kind dest y G) := by
  cases kind
  · exact sim_reduceJ _ _ _
  · exact sim_reduceJ _ _ _
  · exact Sim.bind (sim_getRedJ _ _) (fun _ => Sim.pureRes _)

theorem sim_oneZ (sm : Bool) (kind : LoopKind) (dest y : IVec) (G) :
    Sim solve D (cOneZ solve D sm kind dest y G) (oneZ solve D kind dest y G) := by
  cases kind
  · exact Sim.bind (sim_reduceJZ _ _ _ _) (fun _ => Sim.pure _)
  · exact Sim.bind (sim_reduceJZ _ _ _ _) (fun _ => Sim.pure _)
  · exact Sim.bind (sim_getRedJZ _ _ _) (fun _ => Sim.bind (Sim.pureRes _) (fun _ => Sim.pure _))

/-- The reduction of one term is the one of the variant. -/
def JTermSim (solve : Solver (ZMod q)) (D : DR (ZMod q)) (var : FrobVar (ZMod q)) (term : JTerm q) : Prop :=
  ∀ last u v G, Sim solve D (term last u v G) (var.term last u v G)

theorem jtermSim_P (p : Nat) (kind : LoopKind) : JTermSim solve D (varP solve D p kind) (cTermP solve D p kind) :=
  fun _ _ _ _ => sim_termRed (fun _ _ _ => sim_oneP _ _ _ _) (fun _ _ _ _ => sim_reduceJPoly _ _ _ _) _ _ _ _ _ _ _

theorem jtermSim_Z (sm : Bool) (p : Nat) (kind : LoopKind) :
    JTermSim solve D (varZ solve D p kind) (cTermZ solve D sm p kind) :=
  fun _ _ _ _ => Sim.bind (sim_termRed (fun _ _ _ => sim_oneZ _ _ _ _ _) (fun _ _ _ _ => sim_reduceJPolyZ _ _ _ _ _)
    _ _ _ _ _ _ _) (fun _ => Sim.pure _)

section

variable {var : FrobVar (ZMod q)} {term : JTerm q}

theorem sim_frobTerm (ht : JTermSim solve D var term) (p e : Nat) (s t) :
    Sim solve D (cFrobTerm D var term p e s t) (frobTerm var D p e s t) := by
  rw [cFrobTerm, frobTerm]
  exact Sim.bind (Sim.pureRes _) (fun v => Sim.bind (ht _ _ _ _) (fun r => sim_ite (fun _ => Sim.pure _) (fun _ =>
    sim_ite (fun _ => Sim.pureRes _) (fun _ => Sim.bind (sim_inclJ _) (fun _ => Sim.pureRes _)))))

theorem sim_frobPass (ht : JTermSim solve D var term) (p : Nat) (T) (ei : IVec) (m N e : Nat) (st) :
    Sim solve D (cFrobPass D var term p T ei m N e st) (frobPass var D p T ei m N e st) :=
  Sim.bind (Sim.pureRes _) (fun _ => Sim.bind (sim_foldlM (fun s t => sim_frobTerm ht _ _ _ _) _ _) (fun _ => Sim.pure _))

theorem sim_frobSmall (p : Nat) (T) (ei : IVec) (m N e : Nat) (fact F G0) :
    Sim solve D (cFrobSmall solve D var p T ei m N e fact F G0) (frobSmall var solve D p T ei m N e fact F G0) := by
  rw [cFrobSmall, frobSmall]
  exact Sim.bind (Sim.pureRes _) (fun _ => Sim.bind (Sim.pureRes _) (fun _ => Sim.bind (Sim.pureRes _) (fun _ =>
    Sim.bind (Sim.pureRes _) (fun _ => Sim.bind (sim_finalJ _) (fun _ => Sim.pureRes _)))))

theorem sim_frobLastPass (p : Nat) (T) (ei : IVec) (m N e : Nat) (s) :
    Sim solve D (cFrobLastPass solve D var p T ei m N e s) (frobLastPass var solve D p T ei m N e s) := by
  rw [cFrobLastPass, frobLastPass]
  exact Sim.bind (Sim.pureRes _) (fun _ => sim_ite (fun _ => Sim.bind (sim_frobSmall _ _ _ _ _ _ _ _ _) (fun _ =>
    Sim.pure _)) (fun _ => Sim.pure _))

theorem sim_frobCore (ht : JTermSim solve D var term) (p : Nat) (T) (coord N : Nat) :
    Sim solve D (cFrobCore solve D var term p T coord N) (frobCore var solve D p T coord N) := by
  rw [cFrobCore, frobCore]
  exact Sim.bind (Sim.pureRes _) (fun _ => Sim.bind (Sim.pureRes _) (fun ei => sim_ite (fun _ => Sim.pureRes _) (fun _ =>
    Sim.bind (Sim.pureRes _) (fun len => sim_ite (fun _ => Sim.pureRes _) (fun _ =>
    Sim.bind (sim_downTo (fun e st => sim_frobPass ht _ _ _ _ _ _ _) _ _ _) (fun _ => Sim.bind (sim_finalJ _) (fun _ =>
    Sim.bind (Sim.pureRes _) (fun _ => Sim.bind (sim_downTo (fun e st => sim_frobLastPass _ _ _ _ _ _ _) _ _ _) (fun _ =>
    Sim.bind (Sim.pureRes _) (fun _ => Sim.pure _))))))))))

theorem sim_frobFun (ht : JTermSim solve D var term) (p : Nat) (T) (coord N : Nat) :
    Sim solve D (cFrobFun solve D var term p T coord N) (frobFun var solve D p T coord N) := by
  rw [cFrobFun, frobFun]
  exact Sim.bind (Sim.pureRes _) (fun _ => Sim.bind (Sim.pureRes _) (fun ei => Sim.bind (Sim.pureRes _) (fun _ =>
    Sim.bind (sim_frobCore ht _ _ _ _) (fun _ => Sim.bind (Sim.pureRes _) (fun _ => Sim.pure _)))))

end

theorem sim_frobIter (sm : Bool) (p : Nat) (N s i) :
    Sim solve D (cFrobIter solve D sm p N s i) (frobIter solve D p N s i) := by
  rw [cFrobIter, frobIter]
  exact Sim.bind (Sim.pureRes _) (fun _ => sim_ite (fun _ => Sim.pureRes _) (fun _ => Sim.bind (Sim.pureRes _) (fun _ =>
    sim_ite (fun _ => Sim.bind (sim_frobFun (jtermSim_Z sm p _) _ _ _ _) (fun _ => Sim.pureRes _)) (fun _ => Sim.pure _))))

theorem sim_everythingJ (sm : Bool) : Sim solve D (cEverythingJ solve D sm)
    (JCall.value solve D .everything >>= fun _ => .ok ()) := by
  intro st hst
  have e : ∀ st, (JCall.run solve D sm .everything) st = (cEverythingJ solve D sm >>= fun _ => pure JOut.unit) st :=
    fun _ => rfl
  obtain ⟨h1, h2⟩ := sim_everything (solve := solve) (D := D) sm st hst
  rw [e] at h1 h2
  constructor
  · intro a ha
    obtain ⟨x, hx, -⟩ := Res.bind_eq_ok.1 ha
    obtain ⟨st', e', h⟩ := h1 x hx
    cases hc : cEverythingJ solve D sm st with
    | error e'' => rw [JM.bind_error hc] at e'; cases e'
    | ok y =>
      rw [JM.bind_ok hc] at e'
      obtain ⟨-, h5⟩ := Prod.mk.inj (Except.ok.inj e')
      exact ⟨st', by rw [← h5], h⟩
  · intro er he
    cases hv : JCall.value solve D .everything with
    | ok x => rw [hv] at he; cases he
    | error e2 =>
      rw [hv] at he
      have := h2 e2 hv
      cases hc : cEverythingJ solve D sm st with
      | error e3 =>
        rw [JM.bind_error hc] at this
        cases this
        cases he
        rfl
      | ok y => rw [JM.bind_ok hc] at this; cases this

theorem sim_frobMatrixJ (sm : Bool) (p : Nat) (pre : Bool) (order : List Nat) (T) (N : List Int) :
    Sim solve D (cFrobMatrixJ solve D sm p pre order T N) (do
      check (decide (D.n = N.length))
      if pre then do
        let _ ← JCall.value solve D .everything
      frobMatrixJ solve D p pre order T N) := by
  have e : (do
      check (decide (D.n = N.length))
      if pre then do
        let _ ← JCall.value solve D .everything
      frobMatrixJ solve D p pre order T N) = (do
      check (decide (D.n = N.length))
      (if pre then (JCall.value solve D .everything >>= fun _ => .ok ()) else .ok () : Res Unit)
      let T0 ← frobPrepare pre D.f T N
      let s ← order.foldlM (frobIter solve D p N) (T0, fun _ => CVec.mk' D.basis.length (fun _ => 0))
      pure ((⟨D.basis.length, D.basis.length, fun r c => (s.2 c).e r⟩ : CMat (ZMod q)), s.1)) := by
    rw [frobMatrixJ]
    cases hc : check (decide (D.n = N.length)) with
    | error e => rfl
    | ok _ =>
      simp only [Res.bind_ok]
      cases pre
      · rfl
      · simp only [if_true]
        cases JCall.value solve D .everything <;> rfl
  rw [e, cFrobMatrixJ]
  refine Sim.bind (Sim.pureRes _) (fun _ => ?_)
  have hrest : Sim solve D (do
      let T0 ← JM.pureRes (frobPrepare pre D.f T N)
      let s ← order.foldlM (cFrobIter solve D sm p N) (T0, fun _ => CVec.mk' D.basis.length (fun _ => 0))
      pure ((⟨D.basis.length, D.basis.length, fun r c => (s.2 c).e r⟩ : CMat (ZMod q)), s.1) : JM q _) (do
      let T0 ← frobPrepare pre D.f T N
      let s ← order.foldlM (frobIter solve D p N) (T0, fun _ => CVec.mk' D.basis.length (fun _ => 0))
      pure ((⟨D.basis.length, D.basis.length, fun r c => (s.2 c).e r⟩ : CMat (ZMod q)), s.1)) :=
    Sim.bind (Sim.pureRes _) (fun _ => Sim.bind (sim_foldlM (fun s i => sim_frobIter _ _ _ _ _) _ _) (fun _ => Sim.pure _))
  cases pre with
  | false => exact hrest
  | true => exact Sim.bind (sim_everythingJ sm) (fun _ => hrest)

theorem sim_hcall (sm : Bool) (c : HCall q) : Sim solve D (c.run solve D sm) (c.value solve D) := by
  cases c with
  | base c => exact Sim.bind (sim_call sm c) (fun _ => Sim.pure _)
  | frobZ p kind T c N => exact Sim.bind (sim_frobFun (jtermSim_Z sm p kind) _ _ _ _) (fun _ => Sim.pure _)
  | frobP p kind T c N => exact Sim.bind (sim_frobFun (jtermSim_P p kind) _ _ _ _) (fun _ => Sim.pure _)
  | frobMatrix p pre o T N =>
    have h := Sim.bind (solve := solve) (D := D) (sim_frobMatrixJ sm p pre o T N)
      (fun x => Sim.pure (HOut.frobMat (q := q) x))
    have e : (HCall.frobMatrix p pre o T N : HCall q).value solve D = ((do
      check (decide (D.n = N.length))
      if pre then do
        let _ ← JCall.value solve D .everything
      frobMatrixJ solve D p pre o T N) >>= fun x => .ok (HOut.frobMat x)) := by
      rw [HCall.value]
      cases check (decide (D.n = N.length)) with
      | error e => rfl
      | ok _ =>
        simp only [Res.bind_ok]
        cases pre
        · rfl
        · simp only [if_true]
          cases JCall.value solve D .everything <;> rfl
    rw [e]; exact h

theorem sim_hcalls (sm : Bool) (cs : List (HCall q)) :
    Sim solve D (runCallsH solve D sm cs) (cs.mapM (fun c => c.value solve D)) := by
  induction cs with
  | nil => exact Sim.pure _
  | cons c cs ih =>
    rw [List.mapM_cons]
    exact Sim.bind (sim_hcall sm c) (fun _ => Sim.bind ih (fun _ => Sim.pure _))

end Verif
