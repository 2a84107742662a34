import Verif.Spec.CacheND
import Verif.Lemmas.Cache

/-! The dictionaries of the non-degenerate object never change a result. -/

namespace Verif

open Spec

variable {q : Nat}

/-- Every stored value is the value the function would compute. -/
structure NDCacheOK (solve : Solver (ZMod q)) (N : ND (ZMod q)) (st : NDCache q) : Prop where
  j : CacheOK solve N.toDR st.j
  solveD : ∀ l x, st.solveD.lookup l = some x → solveND solve N.toDR l = .ok x
  redD : ∀ v x, st.redD.find? v = some x → redMatND solve N v = .ok x
  redZD : ∀ v x, st.redZD.find? v = some x → redMatNDZ solve N v = .ok x
  polyD : ∀ v x, st.polyD.find? v = some x → redMatNDPoly solve N v = .ok x
  polyZD : ∀ v x, st.polyZD.find? v = some x → polyItND solve N v = .ok (some x)
  inclD : ∀ u x, st.inclD.find? u = some x → inclsND solve N u = .ok x
  cokD : ∀ u x, st.cokD.find? u = some x → compCokND solve N u = .ok x

/-- The method `x` returns what `y` says, from every good state, and leaves a good state. -/
def NSim (solve : Solver (ZMod q)) (N : ND (ZMod q)) {α : Type} (x : NM q α) (y : Res α) : Prop :=
  ∀ st, NDCacheOK solve N st →
    (∀ a, y = .ok a → ∃ st', x st = .ok (a, st') ∧ NDCacheOK solve N st') ∧
    (∀ e, y = .error e → x st = .error e)

variable {solve : Solver (ZMod q)} {N : ND (ZMod q)}

theorem NSim.pure {α : Type} (a : α) : NSim solve N (pure a) (.ok a) := by
  intro st h
  refine ⟨fun b hb => ?_, fun e he => by cases he⟩
  cases hb
  exact ⟨st, rfl, h⟩

theorem NSim.pureRes {α : Type} (y : Res α) : NSim solve N (NM.pureRes y) y := by
  intro st h
  refine ⟨fun b hb => ⟨st, ?_, h⟩, fun e he => ?_⟩
  · rw [NM.pureRes.eq_def, hb]
  · rw [NM.pureRes.eq_def, he]

theorem NM.bind_ok {α β : Type} {x : NM q α} {g : α → NM q β} {st st' : NDCache q} {a : α}
    (h : x st = .ok (a, st')) : (x >>= g) st = g a st' := by
  show (x st >>= fun p => g p.1 p.2) = _
  rw [h]; rfl

theorem NM.bind_error {α β : Type} {x : NM q α} {g : α → NM q β} {st : NDCache q} {e : Fail}
    (h : x st = .error e) : (x >>= g) st = .error e := by
  show (x st >>= fun p => g p.1 p.2) = _
  rw [h]; rfl

/-- Sequencing, with the value known. -/
theorem NSim.bind' {α β : Type} {x : NM q α} {y : Res α} {g : α → NM q β} {k : α → Res β}
    (h : NSim solve N x y) (hg : ∀ a, y = .ok a → NSim solve N (g a) (k a)) :
    NSim solve N (x >>= g) (y >>= k) := by
  cases y with
  | error e =>
    intro st hst
    refine ⟨fun a ha => (by cases ha), fun e' he => ?_⟩
    cases he
    exact NM.bind_error ((h st hst).2 _ rfl)
  | ok a =>
    intro st hst
    obtain ⟨st', e1, hst'⟩ := (h st hst).1 a rfl
    rw [Res.bind_ok]
    obtain ⟨h3, h4⟩ := hg a rfl st' hst'
    refine ⟨fun b hb => ?_, fun e he => ?_⟩
    · obtain ⟨st2, e2, h5⟩ := h3 b hb
      exact ⟨st2, by rw [NM.bind_ok e1]; exact e2, h5⟩
    · rw [NM.bind_ok e1]; exact h4 e he

theorem NSim.bind {α β : Type} {x : NM q α} {y : Res α} {g : α → NM q β} {k : α → Res β}
    (h : NSim solve N x y) (hg : ∀ a, NSim solve N (g a) (k a)) : NSim solve N (x >>= g) (y >>= k) :=
  h.bind' (fun a _ => hg a)

/-- Storing something. -/
theorem NSim.modify {g : NDCache q → NDCache q} (h : ∀ st, NDCacheOK solve N st → NDCacheOK solve N (g st)) :
    NSim solve N (modify g) (.ok ()) := by
  intro st hst
  refine ⟨fun b hb => ⟨g st, rfl, h st hst⟩, fun e he => by cases he⟩

/-- A method of the base class. -/
theorem NSim.liftJ {α : Type} {x : JM q α} {y : Res α} (h : Sim solve N.toDR x y) :
    NSim solve N (NM.liftJ x) y := by
  intro st hst
  obtain ⟨h1, h2⟩ := h st.j hst.j
  refine ⟨fun a ha => ?_, fun e he => ?_⟩
  · obtain ⟨j', e, hj⟩ := h1 a ha
    refine ⟨{ st with j := j' }, ?_, ⟨hj, hst.solveD, hst.redD, hst.redZD, hst.polyD, hst.polyZD, hst.inclD, hst.cokD⟩⟩
    rw [NM.liftJ.eq_def, e]
  · rw [NM.liftJ.eq_def, h2 e he]

theorem ndCacheOK_empty : NDCacheOK solve N (NDCache.empty q) where
  j := cacheOK_empty
  solveD := by intro l x h; cases h
  redD := by intro l x h; cases h
  redZD := by intro l x h; cases h
  polyD := by intro l x h; cases h
  polyZD := by intro l x h; cases h
  inclD := by intro l x h; cases h
  cokD := by intro l x h; cases h

theorem NSim.map_fst {α : Type} {x : NM q α} {y : Res α} (h : NSim solve N x y) {st : NDCache q}
    (hst : NDCacheOK solve N st) : (x st).map Prod.fst = y := by
  obtain ⟨h1, h2⟩ := h st hst
  cases y with
  | ok a => obtain ⟨st', e, _⟩ := h1 a rfl; rw [e]; rfl
  | error e => rw [h2 e rfl]; rfl

/-- A method that looks into the state first. -/
theorem NSim.cases {α : Type} {x : NM q α} {y : Res α}
    (h : ∀ st, NDCacheOK solve N st → (∃ a, y = .ok a ∧ x st = .ok (a, st)) ∨ ∃ x', x st = x' st ∧ NSim solve N x' y) :
    NSim solve N x y := by
  intro st hst
  rcases h st hst with ⟨a, h1, h2⟩ | ⟨x', h1, h2⟩
  · rw [h1]
    refine ⟨fun b hb => ?_, fun e he => by cases he⟩
    cases hb
    exact ⟨st, h2, hst⟩
  · rw [h1]; exact h2 st hst

/-! ### Loops -/

theorem nsim_mapM {α β : Type} {x : α → NM q β} {y : α → Res β} (h : ∀ a, NSim solve N (x a) (y a)) (L : List α) :
    NSim solve N (L.mapM x) (L.mapM y) := by
  induction L with
  | nil => exact NSim.pure _
  | cons a L ih =>
    rw [List.mapM_cons, List.mapM_cons]
    exact (h a).bind (fun b => ih.bind (fun bs => NSim.pure _))

theorem nsim_forM {α : Type} {x : α → NM q PUnit} {y : α → Res PUnit} (h : ∀ a, NSim solve N (x a) (y a)) (L : List α) :
    NSim solve N (L.forM x) (L.forM y) := by
  induction L with
  | nil => exact NSim.pure _
  | cons a L ih => exact NSim.bind (h a) (fun _ => ih)

theorem nsim_foldlM {α σ : Type} {x : σ → α → NM q σ} {y : σ → α → Res σ} (h : ∀ s a, NSim solve N (x s a) (y s a))
    (L : List α) : ∀ s, NSim solve N (L.foldlM x s) (L.foldlM y s) := by
  induction L with
  | nil => intro s; exact NSim.pure _
  | cons a L ih => intro s; exact NSim.bind (h s a) (fun s' => ih s')

theorem nsim_forRange {σ : Type} {x : Nat → σ → NM q σ} {y : Nat → σ → Res σ} (h : ∀ i s, NSim solve N (x i s) (y i s))
    (n : Nat) (s : σ) : NSim solve N (forRangeN n s x) (forRange n s y) := by
  induction n with
  | zero => exact NSim.pure _
  | succ n ih => exact ih.bind (fun s' => h n s')

theorem nsim_downTo {σ : Type} {x : Nat → σ → NM q σ} {y : Nat → σ → Res σ} (h : ∀ i s, NSim solve N (x i s) (y i s))
    (n : Nat) : ∀ s, NSim solve N (cDownTo x n s) (downTo 0 y n s) := by
  induction n with
  | zero => intro s; exact NSim.pure _
  | succ n ih =>
    intro s
    rw [cDownTo, downTo, Nat.zero_add]
    exact (h _ s).bind (fun s' => ih s')

/-! ### The dictionaries -/

theorem nsim_solveND (l : Int) : NSim solve N (cSolveND solve N l) (solveND solve N.toDR l) := by
  intro st h
  rw [cSolveND]
  cases hf : st.solveD.lookup l with
  | some x =>
    have := h.solveD l x hf
    refine ⟨fun a ha => ⟨st, ?_, h⟩, fun e he => ?_⟩
    · rw [this] at ha; cases ha; rfl
    · rw [this] at he; cases he
  | none =>
    refine ⟨fun a ha => ?_, fun e he => ?_⟩
    · simp only [ha]
      refine ⟨_, rfl, ⟨h.j, fun l' x hx => ?_, h.redD, h.redZD, h.polyD, h.polyZD, h.inclD, h.cokD⟩⟩
      rw [List.lookup_cons] at hx
      by_cases hl : l' = l
      · subst hl
        simp at hx
        rw [ha, hx]
      · simp only [beq_eq_false_iff_ne.2 hl] at hx
        exact h.solveD l' x hx
    · simp only [he]

theorem redMatND_shape (v : IVec) : redMatND solve N v = (do
    check (decide (sumVec v = N.d))
    let low ← (List.range N.n).mapM (fun i : Nat => solveND solve N.toDR (((i : Int) + 1) * N.d))
    let top ← solveND solve N.toDR N.topND
    let Ms ← redNDWith N (low ++ [top]) v
    let _ ← (.ok () : Res Unit)
    .ok Ms) := by
  simp only [redMatND, redNDWith, bind_assoc, Res.bind_ok, pure_bind]
  rfl

theorem redD_set {v : IVec} {Ms : MonMap (CMat (ZMod q))} (hM : redMatND solve N v = .ok Ms) (st : NDCache q)
    (h : NDCacheOK solve N st) : NDCacheOK solve N { st with redD := st.redD.set v Ms } := by
  refine ⟨h.j, h.solveD, fun v' Ms' hv' => ?_, h.redZD, h.polyD, h.polyZD, h.inclD, h.cokD⟩
  rw [MonMap.find?_set] at hv'
  split at hv'
  · next hvv => cases hv'; rw [hvv, hM]
  · exact h.redD v' Ms' hv'

theorem nsim_redND (v : IVec) : NSim solve N (cRedND solve N v) (redMatND solve N v) := by
  refine NSim.cases (fun st h => ?_)
  rw [cRedND]
  cases hf : st.redD.find? v with
  | some x => exact Or.inl ⟨x, h.redD v x hf, rfl⟩
  | none =>
    simp only
    refine Or.inr ⟨_, rfl, ?_⟩
    have hs := redMatND_shape (solve := solve) (N := N) v
    rw [hs]
    refine NSim.bind' (NSim.pureRes _) (fun _ h1 => NSim.bind' (nsim_mapM (fun i => nsim_solveND _) _) (fun low h2 =>
      NSim.bind' (nsim_solveND _) (fun top h3 => NSim.bind' (NSim.pureRes _) (fun Ms h4 =>
      NSim.bind (NSim.modify (redD_set ?_)) (fun _ => NSim.pure Ms)))))
    rw [hs, h1, Res.bind_ok, h2, Res.bind_ok, h3, Res.bind_ok, h4]; rfl

theorem redD_erase (v : IVec) (st : NDCache q) (h : NDCacheOK solve N st) :
    NDCacheOK solve N { st with redD := st.redD.erase v } :=
  ⟨h.j, h.solveD, fun v' Ms' hv' => h.redD v' Ms' (find?_erase _ _ _ _ hv'), h.redZD, h.polyD, h.polyZD, h.inclD, h.cokD⟩

theorem nsim_erase {α : Type} (sm : Bool) {g : NDCache q → NDCache q}
    (hg : ∀ st, NDCacheOK solve N st → NDCacheOK solve N (g st)) {x : NM q α} {y : Res α} (h : NSim solve N x y) :
    NSim solve N (do
      if sm then modify g
      x) y := by
  cases sm with
  | false => simpa using h
  | true =>
    have : NSim solve N (do modify g; x) ((.ok () : Res Unit) >>= fun _ => y) := (NSim.modify hg).bind (fun _ => h)
    simpa using this

theorem nsim_withRedND {α : Type} (sm : Bool) (v : IVec) {body : MonMap (CMat (ZMod q)) → NM q α}
    {y : MonMap (CMat (ZMod q)) → Res α}
    (hb : ∀ Ms, redMatND solve N v = .ok Ms → NSim solve N (body Ms) (y Ms)) :
    NSim solve N (withRedND solve N sm v body) (redMatND solve N v >>= y) := by
  intro st h
  rw [withRedND]
  cases hf : st.redD.find? v with
  | some x =>
    have hx := h.redD v x hf
    rw [hx, Res.bind_ok]
    exact hb x hx st h
  | none =>
    have key : NSim solve N (do
        let Ms ← cRedND solve N v
        let r ← body Ms
        if sm then modify (fun st => { st with redD := st.redD.erase v })
        pure r : NM q _) (redMatND solve N v >>= fun Ms => y Ms >>= fun r => .ok r) :=
      (nsim_redND v).bind' (fun Ms hM => (hb Ms hM).bind (fun r =>
        nsim_erase sm (redD_erase v) (NSim.pure r)))
    have e : (redMatND solve N v >>= y) = (redMatND solve N v >>= fun Ms => y Ms >>= fun r => .ok r) := by
      congr 1; funext Ms; exact (bind_pure _).symm
    rw [e]
    exact key st h

theorem redMatNDZ_shape (v : IVec) : redMatNDZ solve N v = (redMatND solve N v >>= fun Ms =>
    (.ok () : Res Unit) >>= fun _ => .ok (liftMap Ms)) := rfl

theorem nsim_redNDZ (sm : Bool) (v : IVec) : NSim solve N (cRedNDZ solve N sm v) (redMatNDZ solve N v) := by
  refine NSim.cases (fun st h => ?_)
  rw [cRedNDZ]
  cases hf : st.redZD.find? v with
  | some x => exact Or.inl ⟨x, h.redZD v x hf, rfl⟩
  | none =>
    simp only
    refine Or.inr ⟨_, rfl, ?_⟩
    rw [redMatNDZ_shape]
    refine nsim_withRedND sm v (fun Ms hM => NSim.bind (NSim.modify (fun st h => ?_)) (fun _ => NSim.pure _))
    refine ⟨h.j, h.solveD, h.redD, fun v' Ms' hv' => ?_, h.polyD, h.polyZD, h.inclD, h.cokD⟩
    rw [MonMap.find?_set] at hv'
    split at hv'
    · next hvv => cases hv'; rw [hvv, redMatNDZ_shape, hM]; rfl
    · exact h.redZD v' Ms' hv'

theorem redMatNDPoly_shape (v : IVec) : redMatNDPoly solve N v = (redMatND solve N v >>= fun Ms =>
    polyNDWith N v Ms >>= fun E => (.ok () : Res Unit) >>= fun _ => .ok E) := by
  simp only [redMatNDPoly, polyNDWith, bind_assoc, Res.bind_ok]

theorem nsim_polyND (sm : Bool) (v : IVec) : NSim solve N (cPolyND solve N sm v) (redMatNDPoly solve N v) := by
  refine NSim.cases (fun st h => ?_)
  rw [cPolyND]
  cases hf : st.polyD.find? v with
  | some x => exact Or.inl ⟨x, h.polyD v x hf, rfl⟩
  | none =>
    simp only
    refine Or.inr ⟨_, rfl, ?_⟩
    rw [redMatNDPoly_shape]
    refine nsim_withRedND sm v (fun Ms hM => NSim.bind' (NSim.pureRes _) (fun E hE =>
      NSim.bind (NSim.modify (fun st h => ?_)) (fun _ => NSim.pure _)))
    refine ⟨h.j, h.solveD, h.redD, h.redZD, fun v' Ms' hv' => ?_, h.polyZD, h.inclD, h.cokD⟩
    rw [MonMap.find?_set] at hv'
    split at hv'
    · next hvv => cases hv'; rw [hvv, redMatNDPoly_shape, hM, Res.bind_ok, hE]; rfl
    · exact h.polyD v' Ms' hv'

theorem nsim_enterPolyZ {v : IVec} {E : MonMap (CMat (ZMod q))} (hE : redMatNDPoly solve N v = .ok E) :
    NSim solve N (do enterPolyZ v E; let st ← get; pure (st.polyZD.find? v) : NM q _)
      (.ok (if E.isEmpty then none else some (liftMap E))) := by
  intro st h
  have hv : polyItND solve N v = .ok (if E.isEmpty then none else some (liftMap E)) := by
    rw [polyItND, hE]; rfl
  refine ⟨fun a ha => ?_, fun e he => by cases he⟩
  cases ha
  by_cases he : E.isEmpty = true
  · refine ⟨st, ?_, h⟩
    have hn : st.polyZD.find? v = none := by
      cases hf : st.polyZD.find? v with
      | none => rfl
      | some x =>
        have := h.polyZD v x hf
        rw [hv, if_pos he] at this
        cases this
    rw [enterPolyZ, if_pos he, if_pos he]
    show (Except.ok (st.polyZD.find? v, st) : Except Fail _) = _
    rw [hn]
  · refine ⟨{ st with polyZD := st.polyZD.set v (liftMap E) }, ?_, ?_⟩
    · rw [enterPolyZ, if_neg he, if_neg he]
      show (Except.ok ((st.polyZD.set v (liftMap E)).find? v, _) : Except Fail _) = _
      rw [MonMap.find?_set, if_pos rfl]
    · refine ⟨h.j, h.solveD, h.redD, h.redZD, h.polyD, fun v' Ms' hv' => ?_, h.inclD, h.cokD⟩
      rw [MonMap.find?_set] at hv'
      split at hv'
      · next hvv => cases hv'; rw [hvv, hv, if_neg he]
      · exact h.polyZD v' Ms' hv'

theorem polyD_erase (v : IVec) (st : NDCache q) (h : NDCacheOK solve N st) :
    NDCacheOK solve N { st with polyD := st.polyD.erase v } :=
  ⟨h.j, h.solveD, h.redD, h.redZD, fun v' Ms' hv' => h.polyD v' Ms' (find?_erase _ _ _ _ hv'), h.polyZD, h.inclD, h.cokD⟩

theorem nsim_polyNDZ (sm : Bool) (v : IVec) : NSim solve N (cPolyNDZ solve N sm v) (polyItND solve N v) := by
  refine NSim.cases (fun st h => ?_)
  rw [cPolyNDZ]
  cases hf : st.polyZD.find? v with
  | some x => exact Or.inl ⟨some x, h.polyZD v x hf, rfl⟩
  | none =>
    cases hf2 : st.polyD.find? v with
    | some E =>
      simp only
      refine Or.inr ⟨_, rfl, ?_⟩
      have hE := h.polyD v E hf2
      have e : polyItND solve N v = .ok (if E.isEmpty then none else some (liftMap E)) := by
        rw [polyItND, hE]; rfl
      rw [e]
      exact nsim_enterPolyZ hE
    | none =>
      simp only
      refine Or.inr ⟨_, rfl, ?_⟩
      refine (nsim_polyND sm v).bind' (fun E hE => ?_)
      cases sm with
      | false => exact nsim_enterPolyZ hE
      | true =>
        -- the erasure does not touch the dictionary read last
        intro st h
        obtain ⟨h1, -⟩ := nsim_enterPolyZ hE st h
        obtain ⟨st', e1, hst'⟩ := h1 _ rfl
        refine ⟨fun a ha => ?_, fun e he => by cases he⟩
        cases ha
        refine ⟨{ st' with polyD := st'.polyD.erase v }, ?_, polyD_erase v st' hst'⟩
        rw [enterPolyZ] at e1 ⊢
        split at e1
        · next he =>
          rw [if_pos he, if_pos he]
          have e2 : (st.polyZD.find? v, st) = _ := Except.ok.inj e1
          obtain ⟨e3, rfl⟩ := Prod.mk.inj e2
          show (Except.ok (st.polyZD.find? v, _) : Except Fail _) = _
          rw [e3]
        · next he =>
          rw [if_neg he, if_neg he]
          have e2 : ((st.polyZD.set v (liftMap E)).find? v, { st with polyZD := st.polyZD.set v (liftMap E) }) = _ :=
            Except.ok.inj e1
          obtain ⟨e3, rfl⟩ := Prod.mk.inj e2
          show (Except.ok ((st.polyZD.set v (liftMap E)).find? v, _) : Except Fail _) = _
          rw [e3]

/-- `it->second`. -/
def derefRes {α : Type} : Option α → Res α
  | some a => .ok a
  | none => .error .ub

theorem nsim_deref {α : Type} (x : Option α) : NSim solve N (derefN x) (derefRes x) := by
  cases x with
  | some a => exact NSim.pure a
  | none => exact NSim.pureRes _

theorem redMatNDPolyZ_shape (v : IVec) : redMatNDPolyZ solve N v = (polyItND solve N v >>= derefRes) := by
  rw [redMatNDPolyZ, polyItND]
  cases redMatNDPoly solve N v with
  | error e => rfl
  | ok E =>
    simp only [Res.bind_ok]
    by_cases h : E.isEmpty = true
    · rw [if_pos h, if_pos h]; rfl
    · rw [if_neg h, if_neg h]; rfl

/-! ### The methods -/

theorem nsim_getRedND (u v : IVec) : NSim solve N (cGetRedND solve N u v) (getReductionMatrixND solve N u v) :=
  NSim.bind (NSim.pureRes _) (fun _ => NSim.bind (nsim_redND v) (fun _ => NSim.pureRes _))

theorem nsim_reduceND (u v : IVec) (G) : NSim solve N (cReduceND solve N u v G) (reduceVectorND solve N u v G) :=
  NSim.bind (NSim.pureRes _) (fun _ => NSim.bind (nsim_redND v) (fun _ => NSim.pureRes _))

theorem nsim_getRedNDZ (sm : Bool) (u v : IVec) :
    NSim solve N (cGetRedNDZ solve N sm u v) (getReductionMatrixNDZ solve N u v) :=
  NSim.bind (NSim.pureRes _) (fun _ => NSim.bind (nsim_redNDZ sm v) (fun _ => NSim.pureRes _))

theorem nsim_reduceNDZ (sm : Bool) (u v : IVec) (G) :
    NSim solve N (cReduceNDZ solve N sm u v G) (reduceVectorNDZ solve N u v G) :=
  NSim.bind (NSim.pureRes _) (fun _ => NSim.bind (nsim_redNDZ sm v) (fun _ => NSim.pureRes _))

theorem nsim_reduceNDPoly (sm : Bool) (u v : IVec) (k G) :
    NSim solve N (cReduceNDPoly solve N sm u v k G) (reduceVectorNDPoly solve N u v k G) :=
  NSim.bind (NSim.pureRes _) (fun _ => NSim.bind (nsim_polyND sm v) (fun _ => NSim.pureRes _))

theorem nsim_getNDPolyZ (sm : Bool) (u v : IVec) :
    NSim solve N (cGetNDPolyZ solve N sm u v) (getNDPolyZ solve N u v) := by
  rw [getNDPolyZ, redMatNDPolyZ_shape]
  simp only [bind_assoc]
  exact NSim.bind (NSim.pureRes _) (fun _ => NSim.bind (NSim.pureRes _) (fun _ => NSim.bind (NSim.pureRes _) (fun _ =>
    NSim.bind (nsim_polyNDZ sm v) (fun x => NSim.bind (nsim_deref x) (fun _ => NSim.pureRes _)))))

theorem nsim_reduceNDPolyZ (sm : Bool) (u v : IVec) (k G) :
    NSim solve N (cReduceNDPolyZ solve N sm u v k G) (reduceVectorNDPolyZ solve N u v k G) :=
  NSim.bind (nsim_getNDPolyZ sm u v) (fun _ => NSim.pureRes _)

/-! ### The way to the basis -/

/-- A method that computes an entry of a dictionary. -/
def Fills (solve : Solver (ZMod q)) (N : ND (ZMod q)) {α : Type} (dict : NDCache q → MonMap α) (comp : NM q Unit)
    (u : IVec) (y : Res α) : Prop :=
  ∀ st, NDCacheOK solve N st → (dict st).find? u = none →
    (∀ a, y = .ok a → ∃ st', comp st = .ok ((), st') ∧ NDCacheOK solve N st' ∧ (dict st').find? u = some a) ∧
    (∀ e, y = .error e → comp st = .error e)

theorem Fills.look {α : Type} {dict : NDCache q → MonMap α} {comp : NM q Unit} {u : IVec} {y : Res α}
    (h : Fills solve N dict comp u y) (hd : ∀ st, NDCacheOK solve N st → ∀ a, (dict st).find? u = some a → y = .ok a) :
    NSim solve N (lookOrCompute dict comp u) y := by
  intro st hst
  have e : lookOrCompute dict comp u st = (match (dict st).find? u with
      | some M => pure M
      | none => do
          comp
          let st ← get
          derefN ((dict st).find? u) : NM q α) st := rfl
  rw [e]
  cases hf : (dict st).find? u with
  | some M =>
    rw [hd st hst M hf]
    refine ⟨fun a ha => ?_, fun e he => by cases he⟩
    cases ha
    exact ⟨st, rfl, hst⟩
  | none =>
    obtain ⟨h1, h2⟩ := h st hst hf
    refine ⟨fun a ha => ?_, fun e he => NM.bind_error (h2 e he)⟩
    obtain ⟨st', e1, h3, h4⟩ := h1 a ha
    refine ⟨st', ?_, h3⟩
    simp only
    rw [NM.bind_ok e1, NM.bind_ok (a := st') (st' := st') rfl, h4]
    rfl

theorem Fills.fill {α : Type} {dict : NDCache q → MonMap α} {comp : IVec → NM q Unit} {u : IVec} {y : Res α}
    (h : Fills solve N dict (comp u) u y) (hd : ∀ st, NDCacheOK solve N st → ∀ a, (dict st).find? u = some a → y = .ok a) :
    NSim solve N (fillIf dict comp u)
      (if u.all (fun x => decide (0 < x)) = true then y >>= fun _ => .ok () else .ok ()) := by
  intro st hst
  have e : fillIf dict comp u st =
      (if u.all (fun x => decide (0 < x)) = true ∧ ((dict st).find? u).isNone = true then comp u else pure () : NM q Unit) st :=
    rfl
  rw [e]
  by_cases hp : u.all (fun x => decide (0 < x)) = true
  · rw [if_pos hp]
    cases hf : (dict st).find? u with
    | some M =>
      rw [if_neg (by simp), hd st hst M hf]
      refine ⟨fun a ha => ⟨st, rfl, hst⟩, fun e he => by cases he⟩
    | none =>
      rw [if_pos ⟨hp, rfl⟩]
      obtain ⟨h1, h2⟩ := h st hst hf
      cases y with
      | error e =>
        refine ⟨fun a ha => ?_, fun e' he => ?_⟩
        · cases ha
        · cases he
          exact h2 e rfl
      | ok a =>
        obtain ⟨st', e1, h3, -⟩ := h1 a rfl
        refine ⟨fun _ _ => ⟨st', e1, h3⟩, fun e he => ?_⟩
        cases he
  · rw [if_neg hp, if_neg (fun h => hp h.1)]
    exact ⟨fun a ha => ⟨st, rfl, hst⟩, fun e he => by cases he⟩

theorem fills_incl (u : IVec) : Fills solve N NDCache.inclD (cCompInclND solve N u) u (inclsND solve N u) := by
  intro st h hf
  rw [cCompInclND]
  simp only [hf]
  have key : NSim solve N ((List.range N.n).mapM (fun l : Nat => do
      let BU ← cSolveND solve N ((l : Int) * N.d)
      NM.pureRes (inclNDWith N u l BU) : Nat → NM q _)) (inclsND solve N u) :=
    nsim_mapM (fun l => (nsim_solveND _).bind (fun _ => NSim.pureRes _)) _
  obtain ⟨h1, h2⟩ := key st h
  refine ⟨fun a ha => ?_, fun e he => NM.bind_error (h2 e he)⟩
  obtain ⟨st', e1, h'⟩ := h1 a ha
  rw [NM.bind_ok e1]
  refine ⟨{ st' with inclD := st'.inclD.set u a }, rfl, ⟨h'.j, h'.solveD, h'.redD, h'.redZD, h'.polyD, h'.polyZD,
    fun v' Ms' hv' => ?_, h'.cokD⟩, ?_⟩
  · rw [MonMap.find?_set] at hv'
    split at hv'
    · next hvv => cases hv'; rw [hvv, ha]
    · exact h'.inclD v' Ms' hv'
  · show (st'.inclD.set u a).find? u = some a
    rw [MonMap.find?_set, if_pos rfl]

theorem nsim_incl (u : IVec) (l : Nat) : NSim solve N (cInclND solve N u l) (getInclND solve N u l) :=
  NSim.bind (NSim.pureRes _) (fun _ => NSim.bind (NSim.pureRes _) (fun _ => NSim.bind (NSim.pureRes _) (fun _ =>
    NSim.bind ((fills_incl u).look (fun _ h a ha => h.inclD u a ha)) (fun _ => NSim.pureRes _))))

theorem nsim_cokLoops (u : IVec) : NSim solve N (cCokLoops solve N u) (cokLoops solve N u) := by
  rw [cCokLoops, cokLoops]
  refine NSim.bind (nsim_forRange (fun l st => NSim.bind (NSim.liftJ (sim_finalJ _)) (fun A =>
    NSim.bind (nsim_incl u l) (fun B => NSim.pureRes _))) _ _) (fun st0 =>
    NSim.bind (NSim.liftJ (sim_solveJ N.topLevel)) (fun topJ => NSim.bind (nsim_solveND ((N.d : Int) * N.n)) (fun BU =>
    NSim.bind (NSim.pureRes (N.list ((N.d : Int) * N.n - 2 * N.n))) (fun listF =>
    NSim.bind (NSim.pureRes (N.list ((N.d : Int) * N.n))) (fun listL =>
    NSim.bind (NSim.pureRes (N.list ((N.d : Int) * N.n - (N.n + 1)))) (fun listH =>
    NSim.bind (NSim.pureRes (N.dict ((N.d : Int) * N.n - (N.n + 1)))) (fun dictH =>
    NSim.bind (NSim.pureRes (N.dict N.topLevel)) (fun dictW =>
    nsim_forRange (fun j st => NSim.bind (NSim.pureRes _) (fun _ => NSim.bind (NSim.pureRes _) (fun _ =>
        NSim.bind (NSim.pureRes _) (fun _ => NSim.bind (NSim.liftJ (sim_finalJ _)) (fun _ => NSim.pureRes _)))))
      _ _))))))))

theorem fills_cok (u : IVec) : Fills solve N NDCache.cokD (cCompCokND solve N u) u (compCokND solve N u) := by
  intro st h hf
  rw [cCompCokND]
  simp only [hf]
  obtain ⟨h1, h2⟩ := nsim_cokLoops (solve := solve) (N := N) u st h
  rw [compCokND]
  refine ⟨fun a ha => ?_, fun e he => NM.bind_error (h2 e ?_)⟩
  · obtain ⟨s, hs, ha⟩ := Res.bind_eq_ok.1 ha
    obtain rfl := Except.ok.inj ha
    obtain ⟨st', e1, h'⟩ := h1 _ hs
    rw [NM.bind_ok e1]
    refine ⟨{ st' with cokD := st'.cokD.set u s.1 }, rfl, ⟨h'.j, h'.solveD, h'.redD, h'.redZD, h'.polyD, h'.polyZD,
      h'.inclD, fun v' Ms' hv' => ?_⟩, ?_⟩
    · rw [MonMap.find?_set] at hv'
      split at hv'
      · next hvv => cases hv'; rw [hvv, compCokND, hs]; rfl
      · exact h'.cokD v' Ms' hv'
    · show (st'.cokD.set u s.1).find? u = some s.1
      rw [MonMap.find?_set, if_pos rfl]
  · cases hy : cokLoops solve N u with
    | error e' => rw [hy] at he; cases he; rfl
    | ok s => rw [hy] at he; cases he

theorem nsim_cok (u : IVec) : NSim solve N (cCokND solve N u) (getCokND solve N u) :=
  NSim.bind (NSim.pureRes _) (fun _ => NSim.bind (NSim.pureRes _) (fun _ =>
    (fills_cok u).look (fun _ h a ha => h.cokD u a ha)))

/-! ### Filling everything -/

theorem nsim_every (sm ndZZ : Bool) (u : IVec) : NSim solve N (cEveryND solve N sm ndZZ u) (everyND solve N u) := by
  have e : everyND solve N u = (do
      let _ ← redMatND solve N u
      let _ ← (.ok () : Res PUnit)
      let _ ← redMatNDPoly solve N u
      let _ ← polyItND solve N u
      let _ ← (if u.all (fun x => decide (0 < x)) = true then inclsND solve N u >>= fun _ => .ok () else .ok () : Res Unit)
      (if u.all (fun x => decide (0 < x)) = true then compCokND solve N u >>= fun _ => .ok () else .ok () : Res Unit)) := by
    rw [everyND, polyItND]
    cases redMatND solve N u with
    | error e => rfl
    | ok Ms =>
      simp only [Res.bind_ok]
      cases redMatNDPoly solve N u with
      | error e => rfl
      | ok E =>
        simp only [Res.bind_ok, Res.pure_eq]
        by_cases hp : u.all (fun x => decide (0 < x)) = true
        · rw [if_pos hp, if_pos hp, if_pos hp]
          cases inclsND solve N u <;> rfl
        · rw [if_neg hp, if_neg hp, if_neg hp]; rfl
  rw [e, cEveryND]
  refine NSim.bind' (nsim_redND u) (fun Ms hM => ?_)
  have hrest : NSim solve N (do
      let _ ← cPolyND solve N sm u
      let _ ← cPolyNDZ solve N sm u
      fillIf NDCache.inclD (cCompInclND solve N) u
      fillIf NDCache.cokD (cCompCokND solve N) u : NM q Unit) (do
      let _ ← redMatNDPoly solve N u
      let _ ← polyItND solve N u
      let _ ← (if u.all (fun x => decide (0 < x)) = true then inclsND solve N u >>= fun _ => .ok () else .ok () : Res Unit)
      (if u.all (fun x => decide (0 < x)) = true then compCokND solve N u >>= fun _ => .ok () else .ok () : Res Unit)) :=
    NSim.bind (nsim_polyND sm u) (fun _ => NSim.bind (nsim_polyNDZ sm u) (fun _ =>
      NSim.bind ((fills_incl u).fill (fun _ h a ha => h.inclD u a ha)) (fun _ =>
        (fills_cok u).fill (fun _ h a ha => h.cokD u a ha))))
  cases ndZZ with
  | false => simpa using hrest
  | true =>
    have hz : redMatNDZ solve N u = .ok (liftMap Ms) := by rw [redMatNDZ_shape, hM]; rfl
    have := NSim.bind (solve := solve) (N := N) (nsim_redNDZ sm u) (fun _ => hrest)
    rw [hz, Res.bind_ok] at this
    simpa using this

end Verif
