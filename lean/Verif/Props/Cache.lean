import Verif.Lemmas.Cache
import Verif.Props.DeRham

/-!
Property C28: the dictionaries of `de_Rham_local` never change what a call returns.
-/

namespace Verif

open Spec MvPolynomial

section

variable {q : Nat}

/-- **C28.**  After any sequence `pre` of calls on a new object, run with either setting of
`save_memory`, a call returns exactly (value or failure) what it returns on an object whose dictionaries
are empty, under either setting. -/
theorem C28_history (solve : Solver (ZMod q)) (D : DR (ZMod q)) (sm sm' : Bool) (pre : List (JCall q))
    (outs : List (JOut q)) (st : JCache q) (hpre : runCalls solve D sm pre (JCache.empty q) = .ok (outs, st))
    (c : JCall q) : (c.run solve D sm st).map Prod.fst = c.fresh solve D sm' := by
  have hst : CacheOK solve D st := by
    obtain ⟨h1, h2⟩ := sim_calls (solve := solve) (D := D) sm pre _ cacheOK_empty
    cases hv : pre.mapM (fun c => c.value solve D) with
    | error e => rw [h2 e hv] at hpre; cases hpre
    | ok a =>
      obtain ⟨st', e, h⟩ := h1 a hv
      rw [e] at hpre
      cases hpre
      exact h
  rw [JCall.fresh, (sim_call sm c).map_fst hst, (sim_call sm' c).map_fst cacheOK_empty]

/-- **C28, whole sequences.**  A sequence of calls on one object returns the list of values which the
calls return on separate new objects; it fails exactly when one of them does, and as the first one that
does. -/
theorem C28_sequence (solve : Solver (ZMod q)) (D : DR (ZMod q)) (sm sm' : Bool) (cs : List (JCall q)) :
    (runCalls solve D sm cs (JCache.empty q)).map Prod.fst = cs.mapM (fun c => c.fresh solve D sm') := by
  rw [(sim_calls sm cs).map_fst cacheOK_empty]
  congr 1
  funext c
  rw [JCall.fresh, (sim_call sm' c).map_fst cacheOK_empty]

/-- **C28, the values.**  The value is the one of the functions without dictionaries, so that C21 to C27
are statements about the values returned by every call in every sequence. -/
theorem C28_value (solve : Solver (ZMod q)) (D : DR (ZMod q)) (sm : Bool) (c : JCall q) :
    c.fresh solve D sm = c.value solve D := by
  rw [JCall.fresh, (sim_call sm c).map_fst cacheOK_empty]

theorem mapM_perm {α β : Type} {f : α → Res β} {l l' : List α} (h : l.Perm l') : ∀ {b : List β},
    l.mapM f = .ok b → ∃ b', l'.mapM f = .ok b' ∧ (l.zip b).Perm (l'.zip b') := by
  induction h with
  | nil => intro b h; exact ⟨b, h, List.Perm.refl _⟩
  | cons x _ ih =>
    intro b h
    rw [List.mapM_cons, Res.bind_eq_ok] at h
    obtain ⟨y, hy, h⟩ := h
    rw [Res.bind_eq_ok] at h
    obtain ⟨ys, hys, h⟩ := h
    cases h
    obtain ⟨b', hb', hp⟩ := ih hys
    refine ⟨y :: b', by rw [List.mapM_cons, hy, Res.bind_ok, hb']; rfl, ?_⟩
    simpa using hp
  | swap x y l =>
    intro b h
    rw [List.mapM_cons, Res.bind_eq_ok] at h
    obtain ⟨y1, hy1, h⟩ := h
    rw [Res.bind_eq_ok] at h
    obtain ⟨ys, hys, h⟩ := h
    rw [List.mapM_cons, Res.bind_eq_ok] at hys
    obtain ⟨y2, hy2, hys⟩ := hys
    rw [Res.bind_eq_ok] at hys
    obtain ⟨zs, hzs, hys⟩ := hys
    cases hys
    cases h
    refine ⟨y2 :: y1 :: zs, by
      rw [List.mapM_cons, hy2, Res.bind_ok, List.mapM_cons, hy1, Res.bind_ok, hzs]; rfl, ?_⟩
    exact List.Perm.swap _ _ _
  | trans _ _ ih1 ih2 =>
    intro b h
    obtain ⟨b1, h1, p1⟩ := ih1 h
    obtain ⟨b2, h2, p2⟩ := ih2 h1
    exact ⟨b2, h2, p1.trans p2⟩

/-- **C28, order.**  If a sequence of calls completes, then every rearrangement completes, under either
setting of `save_memory`, and each call returns the same value. -/
theorem C28_order (solve : Solver (ZMod q)) (D : DR (ZMod q)) (sm sm' : Bool) (cs cs' : List (JCall q))
    (hp : cs.Perm cs') (outs : List (JOut q)) (st : JCache q)
    (h : runCalls solve D sm cs (JCache.empty q) = .ok (outs, st)) :
    ∃ outs' st', runCalls solve D sm' cs' (JCache.empty q) = .ok (outs', st') ∧
      (cs.zip outs).Perm (cs'.zip outs') := by
  have h1 := C28_sequence solve D sm sm cs
  have h2 := C28_sequence solve D sm' sm cs'
  rw [h] at h1
  obtain ⟨outs', h3, hperm⟩ := mapM_perm hp h1.symm
  rw [h3] at h2
  cases hr : runCalls solve D sm' cs' (JCache.empty q) with
  | error e => rw [hr] at h2; cases h2
  | ok x =>
    rw [hr] at h2
    obtain ⟨o, st'⟩ := x
    have : o = outs' := Except.ok.inj h2
    subst this
    exact ⟨o, st', rfl, hperm⟩

theorem forM_ok {α : Type} {f : α → Res PUnit} {L : List α} (h : ∀ a ∈ L, f a = .ok ()) : L.forM f = .ok () := by
  induction L with
  | nil => rfl
  | cons a L ih =>
    show (f a >>= fun _ => L.forM f) = _
    rw [h a (by simp), Res.bind_ok]
    exact ih (fun b hb => h b (List.mem_cons_of_mem _ hb))

/-- **C28, filling the dictionaries.**  On every constructed object `compute_everything_J` completes after
any sequence of calls that completed, and afterwards every call still returns its value. -/
theorem C28_everything [Fact (1 < q)] {solve : Solver (ZMod q)} {p n d : Nat} {f : MonMap (ZMod q)} {D : DR (ZMod q)}
    (hC : Constructed solve p f n d D) (hn : 1 ≤ n) (sm : Bool) (pre : List (JCall q)) (outs : List (JOut q))
    (st : JCache q) (hpre : runCalls solve D sm pre (JCache.empty q) = .ok (outs, st)) :
    ∃ st', JCall.run solve D sm .everything st = .ok (.unit, st') ∧
      ∀ c : JCall q, (c.run solve D sm st').map Prod.fst = c.fresh solve D sm := by
  obtain ⟨rfl, rfl, hI⟩ := hC.init
  have hD := hI.ok
  have hd := hD.hd
  have hv : (JCall.everything : JCall q).value solve D = .ok .unit := by
    obtain ⟨Ld, hLd, eLd, -⟩ := D.list_ok hD D.d (by omega) (by nlinarith)
    obtain ⟨Ln, hLn, eLn, -⟩ := D.list_ok hD D.n (by omega) (by nlinarith)
    obtain ⟨_, M, _, eM, -⟩ := finalMatJ_ok hC.solver hD hI.basis D.n hn le_rfl
    rw [JCall.value, eLd, Res.bind_ok, forM_ok, Res.bind_ok, eLn, Res.bind_ok, forM_ok, Res.bind_ok, eM]
    · rfl
    · intro u hu
      have hu := (hLn.2 u).1 hu
      obtain ⟨_, _, M, _, _, _, _, e, _⟩ := inclMatJ_ok hD hn hu.1 hu.2.2
      rw [e]; rfl
    · intro v hv
      obtain ⟨_, _, _, _, e⟩ := freshRedJ_ok hC.solver hD hI.top ((hLd.2 v).1 hv)
      rw [e]; rfl
  have hall := C28_sequence solve D sm sm (pre ++ [.everything])
  have h1 := C28_history solve D sm sm pre outs st hpre .everything
  rw [C28_value, hv] at h1
  cases hr : JCall.run solve D sm .everything st with
  | error e => rw [hr] at h1; cases h1
  | ok x =>
    obtain ⟨o, st'⟩ := x
    rw [hr] at h1
    have : o = .unit := Except.ok.inj h1
    subst this
    refine ⟨st', rfl, fun c => ?_⟩
    have happ : ∀ (pre : List (JCall q)) (s0 s1 s2 : JCache q) o o2, runCalls solve D sm pre s0 = .ok (o, s1) →
        JCall.run solve D sm .everything s1 = .ok (o2, s2) →
        runCalls solve D sm (pre ++ [.everything]) s0 = .ok (o ++ [o2], s2) := by
      intro pre
      induction pre with
      | nil =>
        intro s0 s1 s2 o o2 h h2
        cases h
        show (JCall.run solve D sm .everything >>= fun x => runCalls solve D sm [] >>= fun xs => pure (x :: xs)) s0 = _
        rw [JM.bind_ok h2]; rfl
      | cons c pre ih =>
        intro s0 s1 s2 o o2 h h2
        rw [List.cons_append]
        rw [runCalls] at h ⊢
        cases hc : c.run solve D sm s0 with
        | error e => rw [JM.bind_error hc] at h; cases h
        | ok y =>
          obtain ⟨o3, s3⟩ := y
          rw [JM.bind_ok hc] at h ⊢
          cases hp : runCalls solve D sm pre s3 with
          | error e => rw [JM.bind_error hp] at h; cases h
          | ok z =>
            obtain ⟨o4, s4⟩ := z
            rw [JM.bind_ok hp] at h
            cases h
            rw [JM.bind_ok (ih s3 s1 s2 o4 o2 hp h2)]
            rfl
    exact C28_history solve D sm sm _ _ st' (happ pre _ _ _ _ _ hpre hr) c

/-- A sequence that completes: the fixed curve over `ZMod 25`, filling everything first. -/
example : ∃ D : DR (ZMod 25), Constructed exSolve 5 exCurve 2 3 D ∧ ∃ outs st,
    runCalls exSolve D true [.everything, .monomial [1, 2, 3], .everything, .final 1] (JCache.empty _) =
      .ok (outs, st) := by
  obtain ⟨D, h, -⟩ := exCurve_constructed
  have : Fact (1 < 25) := ⟨by decide⟩
  obtain ⟨hn, hd, hI⟩ := h.init
  refine ⟨D, h, ?_⟩
  have he : (JCall.everything : JCall 25).value exSolve D = .ok .unit := by
    obtain ⟨st, e, -⟩ := C28_everything h (by decide) true [] [] _ rfl
    rw [← C28_value exSolve D true, JCall.fresh, e]; rfl
  obtain ⟨H, hH, -⟩ := C24_monomial_to_basis h (by decide) [1, 2, 3] rfl (by decide) 2 (by decide)
  obtain ⟨_, M, _, hM, -⟩ := finalMatJ_ok h.solver hI.ok hI.basis 1 (by decide) (by omega)
  have hs := C28_sequence exSolve D true true [.everything, .monomial [1, 2, 3], .everything, .final 1]
  have e : [JCall.everything, .monomial [1, 2, 3], .everything, .final 1].mapM (fun c : JCall 25 =>
      c.fresh exSolve D true) = .ok [.unit, .vec H, .unit, .mat M] := by
    have e2 : (JCall.monomial [1, 2, 3] : JCall 25).value exSolve D = .ok (.vec H) := by
      rw [JCall.value, hH]; rfl
    have e3 : (JCall.final 1 : JCall 25).value exSolve D = .ok (.mat M) := by
      rw [JCall.value, hM]; rfl
    simp only [C28_value, List.mapM_cons, he, e2, e3, List.mapM_nil]
    rfl
  rw [e] at hs
  cases hr : runCalls exSolve D true [.everything, .monomial [1, 2, 3], .everything, .final 1] (JCache.empty _) with
  | error e => rw [hr] at hs; cases hs
  | ok x => exact ⟨x.1, x.2, rfl⟩

end

end Verif
