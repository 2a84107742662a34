import Verif.Model.ThreadsFrob
import Verif.Lemmas.NDCol

/-!
The three loops of the branch of `frob_ND_flint` for several threads do what the single loop does.
-/

namespace Verif

/-! ### A parallel loop over an array -/

theorem foldlM_slots {α : Type} {run : α → Res α} : ∀ (order : List Nat) {items items' : List α}, order.Nodup →
    (order.foldlM (fun items i => do
      let it ← aget items i
      let it' ← run it
      aset items i it') items = .ok items' ↔
    items'.length = items.length ∧ (∀ i ∈ order, i < items.length) ∧
      ∀ (i : Nat) (a : α), items[i]? = some a → ∃ b, items'[i]? = some b ∧ if i ∈ order then run a = .ok b else b = a)
  | [], items, items', _ => by
      constructor
      · intro h
        cases h
        exact ⟨rfl, by simp, fun i a h => ⟨a, h, by simp⟩⟩
      · rintro ⟨h1, -, h3⟩
        show Except.ok items = _
        congr 1
        apply List.ext_getElem? 
        intro i
        cases h : items[i]? with
        | some a =>
          obtain ⟨b, hb, hab⟩ := h3 i a h
          simp only [List.not_mem_nil, if_false] at hab
          rw [hb, hab]
        | none =>
          symm
          rw [List.getElem?_eq_none_iff] at h ⊢
          omega
  | k :: order, items, items', hn => by
      obtain ⟨hk, hn⟩ := List.nodup_cons.1 hn
      rw [List.foldlM_cons, Res.bind_eq_ok]
      constructor
      · rintro ⟨s, h1, h2⟩
        rw [Res.bind_eq_ok] at h1
        obtain ⟨a, e1, h1⟩ := h1
        rw [Res.bind_eq_ok] at h1
        obtain ⟨b, e2, e3⟩ := h1
        have hlt : k < items.length := by
          by_contra h
          rw [aget_ub _ _ (by omega)] at e1
          cases e1
        rw [aset_of_lt _ _ _ hlt] at e3
        cases e3
        rw [aget_of_lt _ _ hlt] at e1
        cases e1
        obtain ⟨g1, g2, g3⟩ := (foldlM_slots order hn).1 h2
        rw [List.length_set] at g1 g2
        refine ⟨g1, ?_, ?_⟩
        · intro i hi
          rcases List.mem_cons.1 hi with rfl | hi
          · exact hlt
          · exact g2 i hi
        · intro i a ha
          by_cases hik : i = k
          · subst hik
            obtain ⟨b', hb', hif⟩ := g3 i b (by rw [List.getElem?_set, if_pos rfl, if_pos hlt])
            rw [if_neg hk] at hif
            subst hif
            rw [List.getElem?_eq_getElem hlt, Option.some.injEq] at ha
            subst ha
            exact ⟨b', hb', by rw [if_pos (by simp)]; exact e2⟩
          · obtain ⟨b', hb', hif⟩ := g3 i a (by rw [List.getElem?_set, if_neg (Ne.symm hik)]; exact ha)
            refine ⟨b', hb', ?_⟩
            simpa [hik] using hif
      · rintro ⟨h1, h2, h3⟩
        have hlt := h2 k (by simp)
        obtain ⟨b, hb, hrun⟩ := h3 k _ (List.getElem?_eq_getElem hlt)
        rw [if_pos (by simp)] at hrun
        refine ⟨items.set k b, ?_, ?_⟩
        · rw [aget_of_lt _ _ hlt, Res.bind_ok, hrun, Res.bind_ok, aset_of_lt _ _ _ hlt]
        · rw [foldlM_slots order hn, List.length_set]
          refine ⟨h1, fun i hi => h2 i (by simp [hi]), fun i a ha => ?_⟩
          by_cases hik : i = k
          · subst hik
            rw [List.getElem?_set, if_pos rfl, if_pos hlt, Option.some.injEq] at ha
            subst ha
            exact ⟨b, hb, by rw [if_neg hk]⟩
          · rw [List.getElem?_set, if_neg (Ne.symm hik)] at ha
            obtain ⟨b', hb', hif⟩ := h3 i a ha
            refine ⟨b', hb', ?_⟩
            simpa [hik] using hif

theorem mapM_slots {α β : Type} {run : α → Res β} : ∀ (items : List α) {items' : List β},
    (items.mapM run = .ok items' ↔ items'.length = items.length ∧
      ∀ (i : Nat) (a : α), items[i]? = some a → ∃ b, items'[i]? = some b ∧ run a = .ok b)
  | [], items' => by
      constructor
      · intro h
        cases h
        simp
      · rintro ⟨h, -⟩
        rw [List.length_eq_zero_iff.1 h]
        rfl
  | a :: items, items' => by
      rw [List.mapM_cons, Res.bind_eq_ok]
      constructor
      · rintro ⟨b, h1, h2⟩
        rw [Res.bind_eq_ok] at h2
        obtain ⟨bs, h2, h3⟩ := h2
        cases h3
        obtain ⟨g1, g2⟩ := (mapM_slots items).1 h2
        refine ⟨by simp [g1], fun i x hx => ?_⟩
        cases i with
        | zero =>
          simp only [List.getElem?_cons_zero, Option.some.injEq] at hx
          subst hx
          exact ⟨b, rfl, h1⟩
        | succ i => exact g2 i x (by simpa using hx)
      · rintro ⟨h1, h2⟩
        cases items' with
        | nil => simp at h1
        | cons b bs =>
          obtain ⟨b', hb, hr⟩ := h2 0 a rfl
          simp only [List.getElem?_cons_zero, Option.some.injEq] at hb
          subst hb
          refine ⟨b, hr, ?_⟩
          rw [Res.bind_eq_ok]
          refine ⟨bs, (mapM_slots items).2 ⟨by simpa using h1, fun i x hx => ?_⟩, rfl⟩
          obtain ⟨b', hb, hr⟩ := h2 (i + 1) x (by simpa using hx)
          exact ⟨b', by simpa using hb, hr⟩

/-- Whatever the order of the iterations, the loop over the array computes every slot. -/
theorem foldlM_order {α : Type} {run : α → Res α} {items items' : List α} {order : List Nat}
    (ho : List.Perm order (List.range items.length)) :
    order.foldlM (fun items i => do
      let it ← aget items i
      let it' ← run it
      aset items i it') items = .ok items' ↔ items.mapM run = .ok items' := by
  rw [foldlM_slots order (ho.nodup_iff.2 List.nodup_range), mapM_slots]
  constructor
  · rintro ⟨h1, h2, h3⟩
    refine ⟨h1, fun i a ha => ?_⟩
    obtain ⟨b, hb, hif⟩ := h3 i a ha
    have hi : i ∈ order := ho.mem_iff.2 (List.mem_range.2 (List.getElem?_eq_some_iff.1 ha).1)
    rw [if_pos hi] at hif
    exact ⟨b, hb, hif⟩
  · rintro ⟨h1, h2⟩
    refine ⟨h1, fun i hi => List.mem_range.1 (ho.mem_iff.1 hi), fun i a ha => ?_⟩
    obtain ⟨b, hb, hr⟩ := h2 i a ha
    refine ⟨b, hb, ?_⟩
    have hi : i ∈ order := ho.mem_iff.2 (List.mem_range.2 (List.getElem?_eq_some_iff.1 ha).1)
    rw [if_pos hi]
    exact hr

/-- Three loops, or one loop doing the three things for every entry. -/
theorem three_loops {α β γ σ : Type} {p1 : α → Res β} {p2 : β → Res γ} {p3 : σ → γ → Res σ} :
    ∀ (l : List α) {s s' : σ},
    (l.foldlM (fun s x => do
      let a ← p1 x
      let b ← p2 a
      p3 s b) s = .ok s' ↔
      ∃ as bs, l.mapM p1 = .ok as ∧ as.mapM p2 = .ok bs ∧ bs.foldlM p3 s = .ok s')
  | [], s, s' => by
      constructor
      · intro h
        exact ⟨[], [], rfl, rfl, h⟩
      · rintro ⟨as, bs, h1, h2, h3⟩
        cases h1
        cases h2
        exact h3
  | x :: l, s, s' => by
      rw [List.foldlM_cons, Res.bind_eq_ok]
      constructor
      · rintro ⟨s1, h1, h2⟩
        rw [Res.bind_eq_ok] at h1
        obtain ⟨a, e1, h1⟩ := h1
        rw [Res.bind_eq_ok] at h1
        obtain ⟨b, e2, e3⟩ := h1
        obtain ⟨as, bs, f1, f2, f3⟩ := (three_loops l).1 h2
        refine ⟨a :: as, b :: bs, ?_, ?_, ?_⟩
        · rw [List.mapM_cons, e1, Res.bind_ok, f1]; rfl
        · rw [List.mapM_cons, e2, Res.bind_ok, f2]; rfl
        · rw [List.foldlM_cons, e3, Res.bind_ok, f3]
      · rintro ⟨as, bs, h1, h2, h3⟩
        rw [List.mapM_cons, Res.bind_eq_ok] at h1
        obtain ⟨a, e1, h1⟩ := h1
        rw [Res.bind_eq_ok] at h1
        obtain ⟨as', e1', h1⟩ := h1
        cases h1
        rw [List.mapM_cons, Res.bind_eq_ok] at h2
        obtain ⟨b, e2, h2⟩ := h2
        rw [Res.bind_eq_ok] at h2
        obtain ⟨bs', e2', h2⟩ := h2
        cases h2
        rw [List.foldlM_cons, Res.bind_eq_ok] at h3
        obtain ⟨s1, e3, h3⟩ := h3
        exact ⟨s1, by rw [e1, Res.bind_ok, e2, Res.bind_ok, e3], (three_loops l).2 ⟨as', bs', e1', e2', h3⟩⟩

/-! ### The pass -/

section

variable {q : Nat} {solve : Solver (ZMod q)} {N : ND (ZMod q)}

/-- The three things done for one term, in one go, are `frobTermND`. -/
theorem flint_term {p e m : Nat} {ei : IVec} {s s' : MonMap (CVec (ZMod q)) × CVec (ZMod q)} {t : IVec × CVec (ZMod q)} :
    (do
      let a ← flintPrep solve N p e m ei t
      let b ← flintWork q N.n (if 1 < e then p else p - 1) a
      flintCollect solve N p e s b) = .ok s' ↔
    frobTermND (varNDFlint solve N p) solve N p e m ei s t = .ok s' := by
  rw [flintPrep, frobTermND]
  simp only [varNDFlint, flintWork, ndBatched, batchFlint, bind_assoc, pure_bind, flintCollect]
  by_cases he : 1 < e
  · simp only [if_pos he]
    cases directionShift N.d t.1 (if m < e then ei else List.replicate (N.n + 1) 0) with
    | error x => exact Iff.rfl
    | ok v =>
      simp only [Res.bind_ok]
      cases hd : subVec (mulVec p t.1) (mulVec p v) with
      | error x => exact Iff.rfl
      | ok dest => simp only [Res.bind_ok]
  · simp only [if_neg he, Res.bind_ok]
    cases hd : subVec (mulVec p t.1) (mulVec (p - 1 : Nat) t.1) with
    | error x => exact Iff.rfl
    | ok dest =>
      simp only [Res.bind_ok, Bool.not_false, Bool.true_or, check_true]

theorem flint_pass {sched : Nat → Nat → List Nat} (hs : ∀ e k, List.Perm (sched e k) (List.range k)) {p : Nat}
    {T : List (MonMap (ZMod q))} {ei : IVec} {m prec e : Nat} {st st' : FrobState (ZMod q)} :
    frobPassNDThreads sched solve N p T ei m prec e st = .ok st' ↔
    frobPassND (varNDFlint solve N p) solve N p T ei m prec e st = .ok st' := by
  rw [frobPassNDThreads, frobPassND]
  cases frobNewND (varNDFlint solve N p) N T ei m prec e st with
  | error x => exact Iff.rfl
  | ok H =>
    simp only [Res.bind_ok]
    have key : ∀ s', (H.foldlM (frobTermND (varNDFlint solve N p) solve N p e m ei) ([], st.last) = .ok s' ↔
        ∃ as bs, H.mapM (flintPrep solve N p e m ei) = .ok as ∧
          as.mapM (flintWork q N.n (if 1 < e then p else p - 1)) = .ok bs ∧
          bs.foldlM (flintCollect solve N p e) ([], st.last) = .ok s') := by
      intro s'
      rw [← three_loops]
      have hstep : ∀ (l : List (IVec × CVec (ZMod q))) (s : MonMap (CVec (ZMod q)) × CVec (ZMod q)),
          (l.foldlM (frobTermND (varNDFlint solve N p) solve N p e m ei) s = .ok s' ↔
          l.foldlM (fun s x => do
            let a ← flintPrep solve N p e m ei x
            let b ← flintWork q N.n (if 1 < e then p else p - 1) a
            flintCollect solve N p e s b) s = .ok s') := by
        intro l
        induction l with
        | nil => intro s; exact Iff.rfl
        | cons x l ih =>
          intro s
          rw [List.foldlM_cons, List.foldlM_cons, Res.bind_eq_ok, Res.bind_eq_ok]
          exact ⟨fun ⟨s1, h1, h2⟩ => ⟨s1, flint_term.2 h1, (ih s1).1 h2⟩,
            fun ⟨s1, h1, h2⟩ => ⟨s1, flint_term.1 h1, (ih s1).2 h2⟩⟩
      exact hstep H _
    constructor
    · intro h
      rw [Res.bind_eq_ok] at h
      obtain ⟨as, h1, h⟩ := h
      rw [Res.bind_eq_ok] at h
      obtain ⟨bs, h2, h⟩ := h
      rw [Res.bind_eq_ok] at h
      obtain ⟨s', h3, h⟩ := h
      rw [Res.bind_eq_ok]
      exact ⟨s', (key s').2 ⟨as, bs, h1, (foldlM_order (hs e as.length)).1 h2, h3⟩, h⟩
    · intro h
      rw [Res.bind_eq_ok] at h
      obtain ⟨s', h1, h⟩ := h
      obtain ⟨as, bs, g1, g2, g3⟩ := (key s').1 h1
      rw [g1, Res.bind_ok, flintWorkAll, (foldlM_order (hs e as.length)).2 g2, Res.bind_ok, g3, Res.bind_ok]
      exact h

theorem downTo_iff {σ : Type} {lo : Nat} {f g : Nat → σ → Res σ} (h : ∀ e s s', f e s = .ok s' ↔ g e s = .ok s') :
    ∀ (k : Nat) (s s' : σ), downTo lo f k s = .ok s' ↔ downTo lo g k s = .ok s'
  | 0, s, s' => Iff.rfl
  | k + 1, s, s' => by
      rw [downTo, downTo, Res.bind_eq_ok, Res.bind_eq_ok]
      exact ⟨fun ⟨s1, h1, h2⟩ => ⟨s1, (h _ _ _).1 h1, (downTo_iff h k s1 s').1 h2⟩,
        fun ⟨s1, h1, h2⟩ => ⟨s1, (h _ _ _).2 h1, (downTo_iff h k s1 s').2 h2⟩⟩

end

end Verif
