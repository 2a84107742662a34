import Verif.Lemmas.CacheNDFrob
import Verif.Lemmas.FrobNDMain

/-! After `compute_everything_ND` the functions called by `frob_matrix_ND` write to no dictionary. -/

namespace Verif

open Spec

variable {q : Nat} {solve : Solver (ZMod q)} {N : ND (ZMod q)}

/-! ### Entries of the two dictionaries are never removed -/

/-- Entries are kept. -/
def NDLe (st st' : NDCache q) : Prop :=
  (∀ v, (st.polyZD.find? v).isSome = true → (st'.polyZD.find? v).isSome = true) ∧
  ∀ v, (st.cokD.find? v).isSome = true → (st'.cokD.find? v).isSome = true

theorem NDLe.refl (st : NDCache q) : NDLe st st := ⟨fun _ h => h, fun _ h => h⟩

theorem NDLe.trans {a b c : NDCache q} (h : NDLe a b) (h' : NDLe b c) : NDLe a c :=
  ⟨fun v hv => h'.1 v (h.1 v hv), fun v hv => h'.2 v (h.2 v hv)⟩

def Grows {α : Type} (x : NM q α) : Prop := ∀ st a st', x st = .ok (a, st') → NDLe st st'

theorem NM.bind_eq_ok {α β : Type} {x : NM q α} {g : α → NM q β} {st st2 : NDCache q} {b : β}
    (h : (x >>= g) st = .ok (b, st2)) : ∃ a st1, x st = .ok (a, st1) ∧ g a st1 = .ok (b, st2) := by
  cases hx : x st with
  | error e => rw [NM.bind_error hx] at h; cases h
  | ok r =>
    obtain ⟨a, st1⟩ := r
    rw [NM.bind_ok hx] at h
    exact ⟨a, st1, rfl, h⟩

theorem Grows.pure {α : Type} (a : α) : Grows (pure a : NM q α) := by
  intro st b st' h
  obtain ⟨-, rfl⟩ := Prod.mk.inj (Except.ok.inj h)
  exact NDLe.refl _

theorem Grows.pureRes {α : Type} (x : Res α) : Grows (NM.pureRes x : NM q α) := by
  intro st b st' h
  cases x with
  | error e => cases h
  | ok a =>
    obtain ⟨-, rfl⟩ := Prod.mk.inj (Except.ok.inj h)
    exact NDLe.refl _

theorem Grows.bind {α β : Type} {x : NM q α} {g : α → NM q β} (h : Grows x) (hg : ∀ a, Grows (g a)) :
    Grows (x >>= g) := by
  intro st b st' e
  obtain ⟨a, st1, e1, e2⟩ := NM.bind_eq_ok e
  exact (h _ _ _ e1).trans (hg a _ _ _ e2)

theorem Grows.modify {g : NDCache q → NDCache q} (h : ∀ st, NDLe st (g st)) : Grows (modify g : NM q PUnit) := by
  intro st b st' e
  obtain ⟨-, rfl⟩ := Prod.mk.inj (Except.ok.inj e)
  exact h st

theorem Grows.liftJ {α : Type} (x : JM q α) : Grows (NM.liftJ x) := by
  intro st b st' e
  rw [NM.liftJ.eq_def] at e
  cases hx : x st.j with
  | error e' => rw [hx] at e; cases e
  | ok r =>
    obtain ⟨a, j'⟩ := r
    rw [hx] at e
    obtain ⟨-, rfl⟩ := Prod.mk.inj (Except.ok.inj e)
    exact ⟨fun _ h => h, fun _ h => h⟩

/-- A method that looks into the state first. -/
theorem Grows.of {α : Type} {x : NM q α} (h : ∀ st, (∃ a, x st = .ok (a, st)) ∨ ∃ x', x st = x' st ∧ Grows x') :
    Grows x := by
  intro st a st' e
  rcases h st with ⟨b, h1⟩ | ⟨x', h1, h2⟩
  · rw [h1] at e
    obtain ⟨-, rfl⟩ := Prod.mk.inj (Except.ok.inj e)
    exact NDLe.refl _
  · rw [h1] at e; exact h2 _ _ _ e

theorem Grows.mapM {α β : Type} {x : α → NM q β} (h : ∀ a, Grows (x a)) (L : List α) : Grows (L.mapM x) := by
  induction L with
  | nil => exact Grows.pure _
  | cons a L ih =>
    rw [List.mapM_cons]
    exact (h a).bind (fun b => ih.bind (fun bs => Grows.pure _))

theorem Grows.forRange {σ : Type} {x : Nat → σ → NM q σ} (h : ∀ i s, Grows (x i s)) (n : Nat) (s : σ) :
    Grows (forRangeN n s x) := by
  induction n with
  | zero => exact Grows.pure _
  | succ n ih => exact Grows.bind ih (fun s' => h n s')

theorem NDLe.of_eq {st st' : NDCache q} (h1 : st'.polyZD = st.polyZD) (h2 : st'.cokD = st.cokD) : NDLe st st' :=
  ⟨fun v hv => by rw [h1]; exact hv, fun v hv => by rw [h2]; exact hv⟩

theorem isSome_set {V : Type} (m : MonMap V) (k : IVec) (x : V) (v : IVec) (h : (m.find? v).isSome = true) :
    ((m.set k x).find? v).isSome = true := by
  rw [MonMap.find?_set]
  split
  · rfl
  · exact h

theorem grows_solveND (l : Int) : Grows (cSolveND solve N l) := by
  intro st a st' e
  rw [cSolveND] at e
  cases hf : st.solveD.lookup l with
  | some x =>
    rw [hf] at e
    obtain ⟨-, rfl⟩ := Prod.mk.inj (Except.ok.inj e)
    exact NDLe.refl _
  | none =>
    rw [hf] at e
    cases hs : solveND solve N.toDR l with
    | error e' => rw [hs] at e; cases e
    | ok x =>
      rw [hs] at e
      obtain ⟨-, rfl⟩ := Prod.mk.inj (Except.ok.inj e)
      exact NDLe.of_eq rfl rfl

theorem grows_redND (v : IVec) : Grows (cRedND solve N v) := by
  refine Grows.of (fun st => ?_)
  rw [cRedND]
  cases hf : st.redD.find? v with
  | some x => exact Or.inl ⟨x, rfl⟩
  | none =>
    simp only
    refine Or.inr ⟨_, rfl, ?_⟩
    refine (Grows.pureRes _).bind (fun _ => (Grows.mapM (fun i => grows_solveND _) _).bind (fun _ =>
      (grows_solveND _).bind (fun _ => (Grows.pureRes _).bind (fun _ =>
      (Grows.modify ?_).bind (fun _ => Grows.pure _)))))
    exact fun st => NDLe.of_eq rfl rfl

theorem grows_erase {α : Type} (sm : Bool) {g : NDCache q → NDCache q} (hg : ∀ st, NDLe st (g st)) {x : NM q α}
    (h : Grows x) : Grows (do
      if sm then modify g
      x) := by
  cases sm with
  | false => simpa using h
  | true => simpa using (Grows.modify hg).bind (fun _ => h)

theorem grows_withRedND {α : Type} (sm : Bool) (v : IVec) {body : MonMap (CMat (ZMod q)) → NM q α}
    (hb : ∀ Ms, Grows (body Ms)) : Grows (withRedND solve N sm v body) := by
  refine Grows.of (fun st => Or.inr ?_)
  rw [withRedND]
  cases hf : st.redD.find? v with
  | some x => exact ⟨body x, rfl, hb x⟩
  | none =>
    simp only
    refine ⟨_, rfl, ?_⟩
    refine (grows_redND v).bind (fun Ms => (hb Ms).bind (fun r => grows_erase sm ?_ (Grows.pure r)))
    exact fun st => NDLe.of_eq rfl rfl

theorem grows_redNDZ (sm : Bool) (v : IVec) : Grows (cRedNDZ solve N sm v) := by
  refine Grows.of (fun st => ?_)
  rw [cRedNDZ]
  cases hf : st.redZD.find? v with
  | some x => exact Or.inl ⟨x, rfl⟩
  | none =>
    simp only
    refine Or.inr ⟨_, rfl, grows_withRedND sm v (fun Ms => (Grows.modify ?_).bind (fun _ => Grows.pure _))⟩
    exact fun st => NDLe.of_eq rfl rfl

theorem grows_polyND (sm : Bool) (v : IVec) : Grows (cPolyND solve N sm v) := by
  refine Grows.of (fun st => ?_)
  rw [cPolyND]
  cases hf : st.polyD.find? v with
  | some x => exact Or.inl ⟨x, rfl⟩
  | none =>
    simp only
    refine Or.inr ⟨_, rfl, grows_withRedND sm v (fun Ms => (Grows.pureRes _).bind (fun E =>
      (Grows.modify ?_).bind (fun _ => Grows.pure _)))⟩
    exact fun st => NDLe.of_eq rfl rfl

theorem grows_enter (v : IVec) (E : MonMap (CMat (ZMod q))) : Grows (enterPolyZ v E) := by
  rw [enterPolyZ]
  split
  · exact Grows.pure _
  · exact Grows.modify (fun st => ⟨fun w h => isSome_set _ _ _ _ h, fun _ h => h⟩)

theorem grows_get {α : Type} (g : NDCache q → α) : Grows (do let st ← get; pure (g st) : NM q α) := by
  intro st a st' e
  obtain ⟨-, rfl⟩ := Prod.mk.inj (Except.ok.inj e)
  exact NDLe.refl _

theorem grows_polyNDZ (sm : Bool) (v : IVec) : Grows (cPolyNDZ solve N sm v) := by
  refine Grows.of (fun st => ?_)
  rw [cPolyNDZ]
  cases hf : st.polyZD.find? v with
  | some x => exact Or.inl ⟨some x, rfl⟩
  | none =>
    cases hf2 : st.polyD.find? v with
    | some E =>
      simp only
      exact Or.inr ⟨_, rfl, (grows_enter v E).bind (fun _ => grows_get _)⟩
    | none =>
      simp only
      refine Or.inr ⟨_, rfl, (grows_polyND sm v).bind (fun E => (grows_enter v E).bind (fun _ =>
        grows_erase sm ?_ (grows_get _)))⟩
      exact fun st => NDLe.of_eq rfl rfl

/-- The value returned is the entry. -/
theorem polyNDZ_entry (sm : Bool) (v : IVec) {st st' : NDCache q} {it : Option (MonMap (CMat Int))}
    (h : cPolyNDZ solve N sm v st = .ok (it, st')) : st'.polyZD.find? v = it := by
  rw [cPolyNDZ] at h
  have hget : ∀ {s s' : NDCache q} {r}, (do let st ← get; pure (st.polyZD.find? v) : NM q _) s = .ok (r, s') →
      s'.polyZD.find? v = r := by
    intro s s' r e
    obtain ⟨rfl, rfl⟩ := Prod.mk.inj (Except.ok.inj e)
    rfl
  cases hf : st.polyZD.find? v with
  | some x =>
    rw [hf] at h
    obtain ⟨rfl, rfl⟩ := Prod.mk.inj (Except.ok.inj h)
    exact hf
  | none =>
    rw [hf] at h
    cases hf2 : st.polyD.find? v with
    | some E =>
      rw [hf2] at h
      obtain ⟨_, st1, -, h⟩ := NM.bind_eq_ok h
      exact hget h
    | none =>
      rw [hf2] at h
      obtain ⟨E, st1, -, h⟩ := NM.bind_eq_ok h
      obtain ⟨_, st2, -, h⟩ := NM.bind_eq_ok h
      cases sm with
      | false => exact hget h
      | true =>
        obtain ⟨_, st3, -, h⟩ := NM.bind_eq_ok h
        exact hget h

theorem grows_compIncl (u : IVec) : Grows (cCompInclND solve N u) := by
  intro st a st' e
  rw [cCompInclND] at e
  cases hf : st.inclD.find? u with
  | some x => rw [hf] at e; cases e
  | none =>
    rw [hf] at e
    have : Grows (do
      let Ms ← (List.range N.n).mapM (fun l : Nat => do
        let BU ← cSolveND solve N ((l : Int) * N.d)
        NM.pureRes (inclNDWith N u l BU))
      modify (fun st => { st with inclD := st.inclD.set u Ms }) : NM q Unit) :=
      (Grows.mapM (fun l => (grows_solveND _).bind (fun _ => Grows.pureRes _)) _).bind (fun _ =>
        Grows.modify (fun st => NDLe.of_eq rfl rfl))
    exact this _ _ _ e

theorem grows_look {α : Type} (dict : NDCache q → MonMap α) {comp : NM q Unit} (h : Grows comp) (u : IVec) :
    Grows (lookOrCompute dict comp u) := by
  refine Grows.of (fun st => ?_)
  have e : lookOrCompute dict comp u st = (match (dict st).find? u with
      | some M => pure M
      | none => do
          comp
          let st ← get
          derefN ((dict st).find? u) : NM q α) st := rfl
  rw [e]
  cases hf : (dict st).find? u with
  | some M => exact Or.inl ⟨M, rfl⟩
  | none =>
    simp only
    refine Or.inr ⟨_, rfl, h.bind (fun _ => ?_)⟩
    intro s a s' e'
    have e'' : (derefN ((dict s).find? u) : NM q α) s = .ok (a, s') := e'
    cases hx : (dict s).find? u with
    | some x => rw [hx] at e''; exact Grows.pure x _ _ _ e''
    | none => rw [hx] at e''; cases e''

theorem grows_incl (u : IVec) (l : Nat) : Grows (cInclND solve N u l) :=
  (Grows.pureRes _).bind (fun _ => (Grows.pureRes _).bind (fun _ => (Grows.pureRes _).bind (fun _ =>
    (grows_look _ (grows_compIncl u) u).bind (fun _ => Grows.pureRes _))))

theorem grows_cokLoops (u : IVec) : Grows (cCokLoops solve N u) :=
  (Grows.forRange (fun l st => (Grows.liftJ _).bind (fun _ => (grows_incl u l).bind (fun _ => Grows.pureRes _))) _ _).bind
    (fun _ => (Grows.liftJ _).bind (fun _ => (grows_solveND _).bind (fun _ => (Grows.pureRes _).bind (fun _ =>
    (Grows.pureRes _).bind (fun _ => (Grows.pureRes _).bind (fun _ => (Grows.pureRes _).bind (fun _ =>
    (Grows.pureRes _).bind (fun _ => Grows.forRange (fun j st => (Grows.pureRes _).bind (fun _ =>
      (Grows.pureRes _).bind (fun _ => (Grows.pureRes _).bind (fun _ => (Grows.liftJ _).bind (fun _ =>
      Grows.pureRes _))))) _ _))))))))

theorem grows_compCok (u : IVec) : Grows (cCompCokND solve N u) := by
  intro st a st' e
  rw [cCompCokND] at e
  cases hf : st.cokD.find? u with
  | some x => rw [hf] at e; cases e
  | none =>
    rw [hf] at e
    have : Grows (do
      let r ← cCokLoops solve N u
      modify (fun st => { st with cokD := st.cokD.set u r.1 }) : NM q Unit) :=
      (grows_cokLoops u).bind (fun _ => Grows.modify (fun st => ⟨fun _ h => h, fun w h => isSome_set _ _ _ _ h⟩))
    exact this _ _ _ e

theorem fillIf_eq {α : Type} (dict : NDCache q → MonMap α) (comp : IVec → NM q Unit) (u : IVec) (st : NDCache q) :
    fillIf dict comp u st =
      (if u.all (fun x => decide (0 < x)) = true ∧ ((dict st).find? u).isNone = true then comp u else pure () : NM q Unit) st :=
  rfl

theorem grows_fill {α : Type} (dict : NDCache q → MonMap α) {comp : IVec → NM q Unit} (h : ∀ u, Grows (comp u))
    (u : IVec) : Grows (fillIf dict comp u) := by
  intro st a st' e
  rw [fillIf_eq] at e
  split at e
  · exact h u _ _ _ e
  · exact Grows.pure () _ _ _ e

/-- The two entries for `u`. -/
def NDHas (st : NDCache q) (u : IVec) : Prop :=
  (st.polyZD.find? u).isSome = true ∧
    (u.all (fun x => decide (0 < x)) = true → (st.cokD.find? u).isSome = true)

theorem NDHas.mono {st st' : NDCache q} (h : NDLe st st') {u : IVec} (hu : NDHas st u) : NDHas st' u :=
  ⟨h.1 u hu.1, fun hp => h.2 u (hu.2 hp)⟩

/-- What the body of the loop leaves behind. -/
theorem cEvery_has (sm ndZZ : Bool) (u : IVec) (hne : redMatNDPoly solve N u ≠ .ok []) {st st' : NDCache q}
    (hst : NDCacheOK solve N st) (h : cEveryND solve N sm ndZZ u st = .ok ((), st')) :
    NDHas st' u ∧ NDLe st st' := by
  have key : ∀ {s0 s5 : NDCache q}, NDCacheOK solve N s0 → (do
      let _ ← cPolyND solve N sm u
      let _ ← cPolyNDZ solve N sm u
      fillIf NDCache.inclD (cCompInclND solve N) u
      fillIf NDCache.cokD (cCompCokND solve N) u : NM q Unit) s0 = .ok ((), s5) → NDHas s5 u ∧ NDLe s0 s5 := by
    intro s0 s5 h0 e
    obtain ⟨E, s1, e1, e⟩ := NM.bind_eq_ok e
    obtain ⟨it, s2, e2, e⟩ := NM.bind_eq_ok e
    obtain ⟨_, s3, e3, e4⟩ := NM.bind_eq_ok e
    have g1 := grows_polyND sm u _ _ _ e1
    have g2 := grows_polyNDZ sm u _ _ _ e2
    have g3 := grows_fill NDCache.inclD (fun u => grows_compIncl (solve := solve) (N := N) u) u _ _ _ e3
    have g4 := grows_fill NDCache.cokD (fun u => grows_compCok (solve := solve) (N := N) u) u _ _ _ e4
    have hs1 : NDCacheOK solve N s1 ∧ redMatNDPoly solve N u = .ok E := by
      obtain ⟨a1, a2⟩ := nsim_polyND (solve := solve) (N := N) sm u s0 h0
      cases hy : redMatNDPoly solve N u with
      | error e' => rw [a2 e' hy] at e1; cases e1
      | ok E' =>
        obtain ⟨s', b1, b2⟩ := a1 E' hy
        rw [b1] at e1
        obtain ⟨rfl, rfl⟩ := Prod.mk.inj (Except.ok.inj e1)
        exact ⟨b2, rfl⟩
    have hE : E ≠ [] := fun h => hne (by rw [hs1.2, h])
    have hit : it = some (liftMap E) := by
      have := (nsim_polyNDZ (solve := solve) (N := N) sm u).map_fst hs1.1
      rw [e2, polyItND, hs1.2, Res.bind_ok] at this
      have h5 := Except.ok.inj this
      have : it = _ := h5
      rw [this, if_neg (by simpa using hE)]
    have hp2 := polyNDZ_entry sm u e2
    refine ⟨⟨?_, fun hp => ?_⟩, ((g1.trans g2).trans g3).trans g4⟩
    · exact g4.1 u (g3.1 u (by rw [hp2, hit]; rfl))
    · rw [fillIf_eq] at e4
      split at e4
      · next hc =>
        rw [cCompCokND] at e4
        cases hf : s3.cokD.find? u with
        | some x => rw [hf] at e4; cases e4
        | none =>
          rw [hf] at e4
          obtain ⟨r, s4, -, e5⟩ := NM.bind_eq_ok e4
          obtain ⟨-, rfl⟩ := Prod.mk.inj (Except.ok.inj e5)
          show ((s4.cokD.set u r.1).find? u).isSome = true
          rw [MonMap.find?_set, if_pos rfl]; rfl
      · next hc =>
        obtain ⟨-, rfl⟩ := Prod.mk.inj (Except.ok.inj e4)
        cases hf : s3.cokD.find? u with
        | some x => rfl
        | none => exact absurd ⟨hp, by rw [hf]; rfl⟩ hc
  rw [cEveryND] at h
  obtain ⟨Ms, s1, e1, h⟩ := NM.bind_eq_ok h
  have g1 := grows_redND u _ _ _ e1
  have ok1 : NDCacheOK solve N s1 := by
    obtain ⟨a1, a2⟩ := nsim_redND (solve := solve) (N := N) u st hst
    cases hy : redMatND solve N u with
    | error e' => rw [a2 e' hy] at e1; cases e1
    | ok E' =>
      obtain ⟨s', b1, b2⟩ := a1 E' hy
      rw [b1] at e1
      obtain ⟨-, rfl⟩ := Prod.mk.inj (Except.ok.inj e1)
      exact b2
  cases ndZZ with
  | false =>
    obtain ⟨k1, k2⟩ := key ok1 (by simpa using h)
    exact ⟨k1, g1.trans k2⟩
  | true =>
    have h' : (do
        let _ ← cRedNDZ solve N sm u
        let _ ← cPolyND solve N sm u
        let _ ← cPolyNDZ solve N sm u
        fillIf NDCache.inclD (cCompInclND solve N) u
        fillIf NDCache.cokD (cCompCokND solve N) u : NM q Unit) s1 = .ok ((), st') := by simpa using h
    obtain ⟨Z, s2, e2, h'⟩ := NM.bind_eq_ok h'
    have g2 := grows_redNDZ sm u _ _ _ e2
    have ok2 : NDCacheOK solve N s2 := by
      obtain ⟨a1, a2⟩ := nsim_redNDZ (solve := solve) (N := N) sm u s1 ok1
      cases hy : redMatNDZ solve N u with
      | error e' => rw [a2 e' hy] at e2; cases e2
      | ok E' =>
        obtain ⟨s', b1, b2⟩ := a1 E' hy
        rw [b1] at e2
        obtain ⟨-, rfl⟩ := Prod.mk.inj (Except.ok.inj e2)
        exact b2
    obtain ⟨k1, k2⟩ := key ok2 h'
    exact ⟨k1, (g1.trans g2).trans k2⟩

/-- A good state that has everything. -/
structure NDFull (solve : Solver (ZMod q)) (N : ND (ZMod q)) (st : NDCache q) : Prop where
  ok : NDCacheOK solve N st
  has : ∀ u, IsTuple (N.n + 1) N.d u → NDHas st u

theorem forM_has (sm ndZZ : Bool) (L : List IVec) (hne : ∀ u ∈ L, redMatNDPoly solve N u ≠ .ok []) :
    ∀ {st st' : NDCache q}, NDCacheOK solve N st → L.forM (cEveryND solve N sm ndZZ) st = .ok ((), st') →
      (∀ u ∈ L, NDHas st' u) ∧ NDLe st st' ∧ NDCacheOK solve N st' := by
  induction L with
  | nil =>
    intro st st' hst h
    obtain ⟨-, rfl⟩ := Prod.mk.inj (Except.ok.inj h)
    exact ⟨fun u hu => by simp at hu, NDLe.refl _, hst⟩
  | cons a L ih =>
    intro st st' hst h
    have h : (cEveryND solve N sm ndZZ a >>= fun _ => L.forM (cEveryND solve N sm ndZZ)) st = .ok ((), st') := h
    obtain ⟨_, s1, e1, e2⟩ := NM.bind_eq_ok h
    obtain ⟨k1, k2⟩ := cEvery_has sm ndZZ a (hne a (by simp)) hst e1
    have ok1 : NDCacheOK solve N s1 := by
      obtain ⟨a1, a2⟩ := nsim_every (solve := solve) (N := N) sm ndZZ a st hst
      cases hy : everyND solve N a with
      | error e' => rw [a2 e' hy] at e1; cases e1
      | ok E' =>
        obtain ⟨s', b1, b2⟩ := a1 E' hy
        rw [b1] at e1
        obtain ⟨-, rfl⟩ := Prod.mk.inj (Except.ok.inj e1)
        exact b2
    obtain ⟨l1, l2, l3⟩ := ih (fun u hu => hne u (by simp [hu])) ok1 e2
    refine ⟨fun u hu => ?_, k2.trans l2, l3⟩
    rcases List.mem_cons.1 hu with rfl | hu
    · exact k1.mono l2
    · exact l1 u hu

end Verif
