import Verif.Model.Workers
import Verif.Lemmas.ThreadsFrob
import Verif.Props.FrozenND
import Verif.Props.CacheFrob
import Verif.Props.ThreadsFrob

/-!
Property C87: the threads of the parallel loops of `frob_matrix_ND` and `frob_matrix_J` solve no linear system, so that
it does not matter that they have no modulus for `zz_p`.
-/

namespace Verif

open Spec MvPolynomial

section

variable {q : Nat} {solve solve' : Solver (ZMod q)} {p' n d : Nat} {f : MonMap (ZMod q)} {N : ND (ZMod q)}
  {st : NDCache q}

/-! ### The branch of `frob_ND_flint` for several threads reads only -/

theorem frz_mapM {α β : Type} {x : α → NM q β} {y : α → Res β} : ∀ (L : List α), (∀ a ∈ L, Frz st (x a) (y a)) →
    Frz st (L.mapM x) (L.mapM y)
  | [], _ => by rw [List.mapM_nil, List.mapM_nil]; exact Frz.pure _
  | a :: L, h => by
    rw [List.mapM_cons, List.mapM_cons]
    exact Frz.bind (h a (by simp)) (fun _ _ => Frz.bind (frz_mapM L (fun b hb => h b (by simp [hb])))
      (fun _ _ => Frz.pure _))

theorem frz_prep (hst : NDFull solve N st) (sm : Bool) (p e m : Nat) {ei : IVec} (hei : ∀ x ∈ ei, 0 ≤ x)
    {t : IVec × CVec (ZMod q)} (ht : ∀ x ∈ t.1, 0 < x) :
    Frz st (cFlintPrep solve' N sm p e m ei t) (flintPrep solve N p e m ei t) := by
  rw [cFlintPrep, flintPrep]
  refine Frz.bind (Frz.pureRes _) (fun v hv => Frz.bind (Frz.pureRes _) (fun dest _ =>
    Frz.bind (frz_getNDPolyZ hst sm dest v ?_) (fun _ _ => Frz.pure _)))
  split at hv
  · exact forall₂_right (directionShift_inv (shift_nonneg (c := m < e) hei (N.n + 1)) ht hv)
  · obtain rfl := Except.ok.inj hv
    exact fun x hx => (ht x hx).le

theorem prep_length {p e m : Nat} {ei : IVec} {t : IVec × CVec (ZMod q)} {it : FlintItem} (he : ¬ 1 < e)
    (h : flintPrep solve N p e m ei t = .ok it) : it.u.length = N.n + 1 := by
  rw [flintPrep, if_neg he, Res.bind_ok, Res.bind_eq_ok] at h
  obtain ⟨dest, -, h⟩ := h
  rw [Res.bind_eq_ok] at h
  obtain ⟨poly, h1, h⟩ := h
  obtain rfl := Except.ok.inj h
  exact getNDPolyZ_length h1

theorem mapM_prop {α β : Type} {y : α → Res β} {P : β → Prop} : ∀ {L : List α} {M : List β}, (∀ a b, y a = .ok b → P b) →
    L.mapM y = .ok M → ∀ b ∈ M, P b
  | [], M, _, h => by
    rw [List.mapM_nil] at h
    obtain rfl := Except.ok.inj h
    simp
  | a :: L, M, hP, h => by
    rw [List.mapM_cons, Res.bind_eq_ok] at h
    obtain ⟨b, h1, h⟩ := h
    rw [Res.bind_eq_ok] at h
    obtain ⟨M', h2, h⟩ := h
    obtain rfl := Except.ok.inj h
    intro c hc
    rcases List.mem_cons.1 hc with rfl | hc
    · exact hP a _ h1
    · exact mapM_prop hP h2 c hc

theorem work_u {last : Nat} {P : IVec → Prop} : ∀ (order : List Nat) {items items' : List FlintItem},
    flintWorkAll q N.n last order items = .ok items' → (∀ it ∈ items, P it.u) → ∀ it ∈ items', P it.u
  | [], items, items', h, hP => by
    obtain rfl := Except.ok.inj h
    exact hP
  | i :: order, items, items', h, hP => by
    rw [flintWorkAll, List.foldlM_cons, Res.bind_eq_ok] at h
    obtain ⟨s, h1, h2⟩ := h
    refine work_u order h2 ?_
    rw [Res.bind_eq_ok] at h1
    obtain ⟨a, e1, h1⟩ := h1
    rw [Res.bind_eq_ok] at h1
    obtain ⟨b, e2, e3⟩ := h1
    have hlt : i < items.length := by
      by_contra h
      rw [aget_ub _ _ (by omega)] at e1
      cases e1
    rw [aset_of_lt _ _ _ hlt] at e3
    obtain rfl := Except.ok.inj e3
    rw [aget_of_lt _ _ hlt] at e1
    have e1 := Except.ok.inj e1
    rw [flintWork, Res.bind_eq_ok] at e2
    obtain ⟨G, -, e2⟩ := e2
    have e2 := Except.ok.inj e2
    intro it hit
    rcases List.mem_or_eq_of_mem_set hit with hit | rfl
    · exact hP it hit
    · rw [← e2]
      exact hP a (e1 ▸ List.getElem_mem hlt)

theorem frz_collect (hst : NDFull solve N st) (hc : CokEq solve N) (p e : Nat) (s) {it : FlintItem}
    (hit : ¬ 1 < e → it.u.length = N.n + 1) :
    Frz st (cFlintCollect solve' N p e s it) (flintCollect solve N p e s it) :=
  frz_ite (fun _ => Frz.pure _) (fun _ => frz_ite (fun _ => Frz.pureRes _) (fun he =>
    Frz.bind (frz_cok hst hc (hit he)) (fun _ _ => Frz.pureRes _)))

theorem frz_passThreads (hst : NDFull solve N st) (hc : CokEq solve N) (sm : Bool) (sched : Nat → Nat → List Nat) (p : Nat)
    {T : List (MonMap (ZMod q))} (hT : NonNegTable T) {ei : IVec} (hei : ∀ x ∈ ei, 0 ≤ x) (m prec e : Nat)
    (fs : FrobState (ZMod q)) (hfs : PosKeys fs.H) :
    Frz st (cFrobPassNDThreads solve' N sm sched p T ei m prec e fs)
      (frobPassNDThreads sched solve N p T ei m prec e fs) :=
  Frz.bind (Frz.pureRes _) (fun H hH => Frz.bind (frz_mapM H (fun t ht =>
    frz_prep hst sm p e m hei (posKeys_new hT hei hfs hH t ht))) (fun items hi => Frz.bind (Frz.pureRes _)
      (fun items' hi' => Frz.bind (frz_foldlM items' (fun s it hit => frz_collect hst hc p e s (fun he =>
        work_u (P := fun u => u.length = N.n + 1) _ hi' (mapM_prop (fun _ _ h => prep_length he h) hi) it hit)) _)
          (fun _ _ => Frz.pure _))))

theorem frz_frobThreads (hst : NDFull solve N st) (hc : CokEq solve N) (hb : ∀ b ∈ N.basis, ∀ x ∈ b, (0 : Int) ≤ x)
    (sm : Bool) {sched : Nat → Nat → List Nat} (hs : ∀ e k, List.Perm (sched e k) (List.range k)) (p : Nat)
    {T : List (MonMap (ZMod q))} (hT : GoodTable N T) (coord prec : Nat) :
    Frz st (cFrobNDFlintThreads solve' N sm sched p T coord prec) (frobNDFlintThreads sched solve N p T coord prec) := by
  rw [cFrobNDFlintThreads, frobNDFlintThreads]
  refine Frz.bind (Frz.pureRes _) (fun _ _ => Frz.bind (Frz.pureRes _) (fun ei hei => Frz.bind (Frz.pureRes _) (fun T' hT' =>
    frz_ite (fun _ => Frz.pureRes _) (fun _ => ?_))))
  have hei0 : ∀ x ∈ ei, 0 ≤ x := by
    refine hb ei ?_
    rw [aget] at hei
    cases hx : N.basis[coord]? with
    | none => rw [hx] at hei; cases hei
    | some b =>
      rw [hx] at hei
      obtain rfl := Except.ok.inj hei
      exact List.mem_of_getElem? hx
  exact Frz.bind (frz_downTo (fun s => PosKeys s.H)
    (fun e s hs => frz_passThreads hst hc sm sched p (hT _ _ hT') hei0 _ _ _ _ hs)
    (fun e s s' hk h => posKeys_pass (hT _ _ hT') hei0 hk ((flint_pass hs).1 h)) _ _ (fun t ht => by simp at ht))
    (fun _ _ => Frz.pureRes _)

theorem basisND_nonneg (hC : ConstructedND solve p' f n d N) : ∀ b ∈ N.basis, ∀ x ∈ b, (0 : Int) ≤ x := by
  intro b hb
  obtain ⟨-, -, hI⟩ := hC.init
  obtain ⟨k, -, -, h⟩ := hI.base.basis.pole b hb
  exact h.2.1

/-- **C87, `frob_ND`.**  On a constructed object with `1 ≤ n ≤ 61`, after any calls followed by
`compute_everything_ND`: when `frob_ND_flint` returns `r` in one thread, it returns `r` in the branch for one thread and
in the branch for several threads, for every schedule, in a thread with any solver `solve'` whatever, in particular one
that fails on every system; and no dictionary is changed. -/
theorem C87_frob_ND [Fact (1 < q)] (hC : ConstructedND solve p' f n d N) (hn : 1 ≤ n) (hn' : n ≤ 61) (sm : Bool)
    (pre : List (NDCall q)) (outs : List (NDOut q)) (st st' : NDCache q)
    (hpre : runCallsND solve N sm pre (NDCache.empty q) = .ok (outs, st)) (J ndZZ : Bool)
    (he : cEverythingND solve N sm J ndZZ st = .ok ((), st')) (p : Nat) (T : List (MonMap (ZMod q)))
    (hT : Reached n f T) (coord prec : Nat) (r : CVec (ZMod q) × List (MonMap (ZMod q)))
    (hr : frobNDFlint solve N p T coord prec = .ok r) (solve' : Solver (ZMod q)) :
    cFrobNDFlint solve' N sm p T coord prec st' = .ok (r, st') ∧
      ∀ sched : Nat → Nat → List Nat, (∀ e k, List.Perm (sched e k) (List.range k)) →
        cFrobNDFlintThreads solve' N sm sched p T coord prec st' = .ok (r, st') := by
  have hfull := everything_full hC hn hn' (ndReached_ok hC hpre) he
  exact ⟨frz_frobFlint hfull (cokEq_of hC) (basisND_nonneg hC) sm p (reached_good hC hT) coord prec r hr,
    fun sched hs => frz_frobThreads hfull (cokEq_of hC) (basisND_nonneg hC) sm hs p (reached_good hC hT) coord prec r
      ((C58_threads_ND solve N p T coord prec sched hs r).2 hr)⟩

theorem frz_iterThreads (hC : ConstructedND solve p' f n d N) (hst : NDFull solve N st) (sm : Bool)
    {sched : Nat → Nat → List Nat} (hs : ∀ e k, List.Perm (sched e k) (List.range k)) (p : Nat)
    {T : List (MonMap (ZMod q))} (hT : Reached n f T) (prec : List Int) (rows : Nat → CVec (ZMod q)) (i : Nat) :
    Frz st (cFrobIterNDThreads solve' N sm sched p prec (T, rows) i) (frobIterND solve N p prec (T, rows) i) := by
  rw [cFrobIterNDThreads, frobIterND]
  refine Frz.bind (Frz.pureRes _) (fun b _ => frz_ite (fun _ => Frz.pureRes _) (fun _ => Frz.bind (Frz.pureRes _)
    (fun Ni _ => frz_ite (fun _ => Frz.bind ?_ (fun _ _ => Frz.pureRes _)) (fun _ => Frz.pure _))))
  intro a ha
  exact frz_frobThreads hst (cokEq_of hC) (basisND_nonneg hC) sm hs p (reached_good hC hT) i _ a
    ((C58_threads_ND solve N p T i _ sched hs a).2 ha)

theorem iterND_table {p : Nat} {prec : List Int} {T0 : List (MonMap (ZMod q))} (hlen : ∀ x ∈ prec, x ≤ T0.length)
    {rows : Nat → CVec (ZMod q)} {i : Nat} {s : List (MonMap (ZMod q)) × (Nat → CVec (ZMod q))}
    (h : frobIterND solve N p prec (T0, rows) i = .ok s) : s.1 = T0 := by
  rw [frobIterND_eq] at h
  obtain ⟨b, Ni, -, -, h6, hc | ⟨hp, r, e1, -, rfl⟩⟩ := mIter_ok_iff.1 h
  · obtain ⟨-, rfl⟩ := hc
    rfl
  · have hF := frobNDFlint_fills _ _ _ _ e1
    have := hlen Ni (iget_mem h6)
    rw [computeFpow_of_lt (by omega)] at hF
    exact (Except.ok.inj hF).symm

/-- **C87, `frob_matrix_ND`.**  On a constructed object with `1 ≤ n ≤ 61`, after any calls: when the loop without
dictionaries and with one solver returns `r` for some order of the iterations, then `frob_matrix_ND` with several
threads returns `r`, whatever solver each thread has, whatever the schedules of the inner loops; the dictionaries
are then as `compute_everything_ND` left them. -/
theorem C87_frob_matrix_ND [Fact (1 < q)] (hC : ConstructedND solve p' f n d N) (hn : 1 ≤ n) (hn' : n ≤ 61) (sm : Bool)
    (pre : List (NDCall q)) (outs : List (NDOut q)) (st : NDCache q)
    (hpre : runCallsND solve N sm pre (NDCache.empty q) = .ok (outs, st)) (p : Nat) (order : List Nat)
    (T : List (MonMap (ZMod q))) (hT : Reached n f T) (prec : List Int)
    (r : CMat (ZMod q) × List (MonMap (ZMod q))) (hr : frobMatrixND solve N p true order T prec = .ok r)
    (ws : Nat → Solver (ZMod q)) (sched : Nat → Nat → Nat → List Nat)
    (hs : ∀ i e k, List.Perm (sched i e k) (List.range k)) :
    ∃ st', cEverythingND solve N sm false false st = .ok ((), st') ∧
      cFrobMatrixNDWorkers solve N sm ws sched p order T prec st = .ok (r, st') := by
  obtain ⟨st', he, -⟩ := C52_everything hC hn hn' sm pre outs st hpre false false
  rw [NDCall.run] at he
  obtain ⟨⟨⟩, st1, he1, h'⟩ := NM.bind_eq_ok he
  replace he := he1
  obtain rfl : st1 = st' := (Prod.mk.inj (Except.ok.inj h')).2
  refine ⟨st1, he, ?_⟩
  have hfull := everything_full hC hn hn' (ndReached_ok hC hpre) he
  rw [frobMatrixND, Res.bind_eq_ok] at hr
  obtain ⟨⟨⟩, h1, hr⟩ := hr
  rw [Res.bind_eq_ok] at hr
  obtain ⟨T0, h2, hr⟩ := hr
  rw [Res.bind_eq_ok] at hr
  obtain ⟨s, h3, hr⟩ := hr
  have hlen := prepare_len h2
  have hT0 : Reached n f T0 := by
    have h2 := h2
    unfold frobPrepare at h2
    rw [if_pos rfl, Res.bind_eq_ok] at h2
    obtain ⟨mx, -, h2⟩ := h2
    obtain ⟨-, -, hI⟩ := hC.init
    exact hT.step (hI.base.f_eq ▸ h2)
  have key : ∀ (L : List Nat) (rows : Nat → CVec (ZMod q)),
      Frz st1 (L.foldlM (fun s i => cFrobIterNDThreads (ws i) N sm (sched i) p prec s i) (T0, rows))
        (L.foldlM (frobIterND solve N p prec) (T0, rows)) := by
    intro L
    induction L with
    | nil => intro rows; exact Frz.pure _
    | cons i L ih =>
      intro rows
      rw [List.foldlM_cons, List.foldlM_cons]
      refine Frz.bind (frz_iterThreads hC hfull sm (hs i) p hT0 prec rows i) (fun s hs => ?_)
      obtain ⟨T1, rows1⟩ := s
      obtain rfl : T1 = T0 := iterND_table hlen hs
      exact ih rows1
  rw [cFrobMatrixNDWorkers, NM.bind_ok (Frz.pureRes _ _ h1), NM.bind_ok he, NM.bind_ok (Frz.pureRes _ _ h2),
    NM.bind_ok (key order _ s h3)]
  obtain rfl := Except.ok.inj hr
  rfl

end

/-! ### `frob_matrix_J` -/

section

variable {q : Nat} {solve solve' : Solver (ZMod q)} {p' n d : Nat} {f : MonMap (ZMod q)} {D : DR (ZMod q)}

theorem jfrz_frobZ (hC : Constructed solve p' f n d D) (hn : 1 ≤ n) {st : JCache q} (hst : JFull solve D st) (sm : Bool)
    (p : Nat) (kind : LoopKind) {T : List (MonMap (ZMod q))} (hT : Reached n f T) (coord N : Nat) :
    JFrz st (cFrobJZ solve' D sm p kind T coord N) (frobFun (varZ solve D p kind) solve D p T coord N) := by
  obtain ⟨rfl, rfl, hI⟩ := hC.init
  have h : JFrz st (cFrobFun solve' D (varZ solve D p kind) (cTermZ solve' D sm p kind) p T coord N)
      (frobFun (varZ solve D p kind) solve D p T coord N) :=
    jfrz_frobFun hst (termStill_Z hst hn hI.ok.hd sm p kind) (basis_nonneg hC) (reached_nonneg hC hT) coord N
  exact h

/-- **C87, `frob_J_ZZ` and `frob_J_ZZ_p`.** -/
theorem C87_frob_J (hC : Constructed solve p' f n d D) (hn : 1 ≤ n) (sm : Bool) (pre : List (HCall q))
    (outs : List (HOut q)) (st st' : JCache q) (hpre : runCallsH solve D sm pre (JCache.empty q) = .ok (outs, st))
    (he : cEverythingJ solve D sm st = .ok ((), st')) (p : Nat) (kind : LoopKind) (T : List (MonMap (ZMod q)))
    (hT : Reached n f T) (coord N : Nat) (solve' : Solver (ZMod q)) :
    (∀ r, frobFun (varZ solve D p kind) solve D p T coord N = .ok r →
      cFrobJZ solve' D sm p kind T coord N st' = .ok (r, st')) ∧
    (∀ r, frobFun (varP solve D p kind) solve D p T coord N = .ok r →
      cFrobJP solve' D p kind T coord N st' = .ok (r, st')) := by
  have hst := everythingJ_fullC hC hn (hreached_ok hpre) he
  refine ⟨fun r hr => jfrz_frobZ hC hn hst sm p kind hT coord N r hr, fun r hr => ?_⟩
  obtain ⟨rfl, rfl, hI⟩ := hC.init
  have h : JFrz st' (cFrobFun solve' D (varP solve D p kind) (cTermP solve' D p kind) p T coord N)
      (frobFun (varP solve D p kind) solve D p T coord N) :=
    jfrz_frobFun hst (termStill_P hst hn hI.ok.hd p kind) (basis_nonneg hC) (reached_nonneg hC hT) coord N
  exact h r hr

/-- **C87, `frob_matrix_J`.**  As `C87_frob_matrix_ND`. -/
theorem C87_frob_matrix_J [Fact (1 < q)] (hC : Constructed solve p' f n d D) (hn : 1 ≤ n) (sm : Bool)
    (pre : List (HCall q)) (outs : List (HOut q)) (st : JCache q)
    (hpre : runCallsH solve D sm pre (JCache.empty q) = .ok (outs, st)) (p : Nat) (order : List Nat)
    (T : List (MonMap (ZMod q))) (hT : Reached n f T) (prec : List Int)
    (r : CMat (ZMod q) × List (MonMap (ZMod q))) (hr : frobMatrixJ solve D p true order T prec = .ok r)
    (ws : Nat → Solver (ZMod q)) :
    ∃ st', cEverythingJ solve D sm st = .ok ((), st') ∧
      cFrobMatrixJWorkers solve sm D ws p order T prec st = .ok (r, st') := by
  have hev : (JCall.everything : JCall q).value solve D = .ok .unit := by
    obtain ⟨st, e, -⟩ := C28_everything hC hn true [] [] _ rfl
    rw [← C28_value _ D true, JCall.fresh, e]; rfl
  obtain ⟨st', he, -⟩ := (sim_call (solve := solve) (D := D) sm .everything st (hreached_ok hpre)).1 _ hev
  rw [JCall.run] at he
  obtain ⟨⟨⟩, st1, he1, h'⟩ := JM.bind_eq_ok he
  replace he := he1
  obtain rfl : st1 = st' := (Prod.mk.inj (Except.ok.inj h')).2
  refine ⟨st1, he, ?_⟩
  have hfull := everythingJ_fullC hC hn (hreached_ok hpre) he
  rw [frobMatrixJ, Res.bind_eq_ok] at hr
  obtain ⟨⟨⟩, h1, hr⟩ := hr
  rw [Res.bind_eq_ok] at hr
  obtain ⟨T0, h2, hr⟩ := hr
  rw [Res.bind_eq_ok] at hr
  obtain ⟨s, h3, hr⟩ := hr
  have hlen := prepare_len h2
  have hT0 : Reached n f T0 := by
    have h2 := h2
    unfold frobPrepare at h2
    rw [if_pos rfl, Res.bind_eq_ok] at h2
    obtain ⟨mx, -, h2⟩ := h2
    obtain ⟨-, -, hI⟩ := hC.init
    exact hT.step (hI.f_eq ▸ h2)
  have key : ∀ (L : List Nat) (rows : Nat → CVec (ZMod q)),
      JFrz st1 (L.foldlM (fun s i => cFrobIter (ws i) D sm p prec s i) (T0, rows))
        (L.foldlM (frobIter solve D p prec) (T0, rows)) := by
    intro L
    induction L with
    | nil => intro rows; exact JFrz.pure _
    | cons i L ih =>
      intro rows
      rw [List.foldlM_cons, List.foldlM_cons]
      refine JFrz.bind ?_ (fun s hs => ?_)
      · rw [cFrobIter, frobIter]
        refine JFrz.bind (JFrz.pureRes _) (fun b _ => jfrz_ite (fun _ => JFrz.pureRes _) (fun _ => JFrz.bind (JFrz.pureRes _)
          (fun Ni _ => jfrz_ite (fun _ => JFrz.bind ?_ (fun _ _ => JFrz.pureRes _)) (fun _ => JFrz.pure _))))
        exact jfrz_frobZ hC hn hfull sm p .poly hT0 i _
      · obtain ⟨T1, rows1⟩ := s
        obtain rfl : T1 = T0 := iter_table hlen hs
        exact ih rows1
  rw [cFrobMatrixJWorkers, JM.bind_ok (JFrz.pureRes _ _ h1), JM.bind_ok he, JM.bind_ok (JFrz.pureRes _ _ h2),
    JM.bind_ok (key order _ s h3)]
  obtain rfl := Except.ok.inj hr
  rfl

end

/-! ### Cases that meet the hypotheses -/

section

local instance workersPrime2 : Fact (Nat.Prime 2) := ⟨by norm_num⟩

local instance workersPrime5 : Fact (Nat.Prime 5) := ⟨by norm_num⟩

/-- `x^3 + y^3` modulo 8, in threads that cannot solve any system, with the iterations and the inner loops backwards. -/
example : ∃ (la : LinAlg (ZMod 2)) (N : ND (ZMod (2 ^ 3))) (T : List (MonMap (ZMod (2 ^ 3)))) (r : _) (st' : _),
    ConstructedND (padicSolver 2 3 la true 3) 2 exBinary 1 3 N ∧ N.basis.length = 2 ∧
      cFrobMatrixNDWorkers (padicSolver 2 3 la true 3) N true (fun _ _ => .error .ub)
        (fun _ _ k => (List.range k).reverse) 2 [1, 0] T [1] (NDCache.empty _) = .ok (r, st') := by
  have : Fact (1 < 2 ^ 3) := ⟨by norm_num⟩
  obtain ⟨la, hla⟩ := exists_linAlg (ZMod 2)
  obtain ⟨N, h, hb⟩ := exBinary_padicND la hla true
  obtain ⟨T, hT, -⟩ := C29_fpow_table h.wf h.hom [3, 1]
  have hTr : Reached 1 exBinary T := ⟨_, hT⟩
  have hlen : N.basis.length = 2 := by rw [hb]; rfl
  have hfl : FlintBatchOK (2 ^ 3) 2 1 3 (padicSolver 2 3 la true 3) N := Or.inr (Or.inl (by norm_num))
  obtain ⟨r, hr⟩ : ∃ r, frobMatrixND (padicSolver 2 3 la true 3) N 2 true [1, 0] T [1] = .ok r := by
    refine (C51_columns h (by norm_num) hTr true (by rw [hlen]; exact List.Perm.swap 0 1 []) [1]).2.2 ⟨rfl, ?_⟩
    intro i b Ni hbi hNi hp
    have hi : i < 2 := by rw [← hlen]; exact (List.getElem?_eq_some_iff.1 hbi).1
    have hbi' := hbi
    rw [hb] at hbi
    have hpo : poleOrder 1 3 b = 1 := by
      interval_cases i
      · obtain rfl : [0, 1] = b := by simpa using hbi
        decide
      · obtain rfl : [1, 0] = b := by simpa using hbi
        decide
    rw [hpo] at hNi
    obtain rfl : (1 : Int) = Ni := by simpa using hNi
    refine (C49_frob_ND_flint_partial (by norm_num) h (by norm_num) hfl i 1 b hbi' (by norm_num) ?_ _ T hT).2.1 ?_
    · rw [hpo]; decide +kernel
    · rw [hpo]; decide
  obtain ⟨st', -, hw⟩ := C87_frob_matrix_ND h (by norm_num) (by norm_num) true [] [] _ rfl 2 [1, 0] T hTr [1] r hr
    (fun _ _ => .error .ub) (fun _ _ k => (List.range k).reverse) (fun _ _ k => List.reverse_perm _)
  exact ⟨la, N, T, r, st', h, hlen, hw⟩

/-- The elliptic curve modulo 25 with precisions `[2, 0]`, in threads that cannot solve any system. -/
example : ∃ (la : LinAlg (ZMod 5)) (D : DR (ZMod (5 ^ 2))) (T : List (MonMap (ZMod (5 ^ 2)))) (r : _) (st' : _),
    Constructed (padicSolver 5 2 la true 2) 5 exCurve 2 3 D ∧ D.basis.length = 2 ∧
      cFrobMatrixJWorkers (padicSolver 5 2 la true 2) true D (fun _ _ => .error .ub) 5 [1, 0] T [2, 0]
        (JCache.empty _) = .ok (r, st') := by
  have : Fact (1 < 5 ^ 2) := ⟨by norm_num⟩
  obtain ⟨la, hla⟩ := exists_linAlg (ZMod 5)
  obtain ⟨D, h, hb⟩ := exCurve_padic la hla true
  obtain ⟨T, hT, -⟩ := C29_fpow_table h.wf h.hom [3, 1]
  have hTr : Reached 2 exCurve T := ⟨_, hT⟩
  have hlen : D.basis.length = 2 := by rw [hb]; rfl
  have := nontrivial_pow (p := 5) (N := 2) (by norm_num)
  have hfrob : ∃ r, frobFun (varZ (padicSolver 5 2 la true 2) D 5 .poly) (padicSolver 5 2 la true 2) D 5 T 0 2 = .ok r := by
    refine (C47_frob_J_partial (by norm_num) h (by norm_num) .poly 0 2 [0, 0, 0] (by rw [hb]; rfl) (by norm_num)
      (by decide) ?_ ?_ _ T hT).2.1 (by decide +kernel)
    · intro i j hj hi
      interval_cases i <;> interval_cases j <;> decide
    · intro j _ hj
      exact absurd hj (by rw [show 2 / 5 = 0 from rfl, show poleOrder 2 3 [0, 0, 0] = 1 by decide]; omega)
  obtain ⟨r, hr⟩ : ∃ r, frobMatrixJ (padicSolver 5 2 la true 2) D 5 true [1, 0] T [2, 0] = .ok r := by
    refine (C33_columns h (by norm_num) hTr true (by rw [hlen]; exact List.Perm.swap 0 1 []) [2, 0]
      (fun _ _ _ _ _ => ?_)).2.2 ⟨rfl, ?_⟩
    · rw [show 2 / 5 = 0 from rfl]; exact Nat.zero_le _
    · intro i b Ni hbi hNi hp
      have hi : i < 2 := by rw [← hlen]; exact (List.getElem?_eq_some_iff.1 hbi).1
      rw [hb] at hbi
      interval_cases i
      · obtain rfl : [0, 0, 0] = b := by simpa using hbi
        obtain rfl : (2 : Int) = Ni := by
          rw [show poleOrder 2 3 [0, 0, 0] = 1 by decide] at hNi
          simpa using hNi
        exact hfrob
      · obtain rfl : [1, 1, 1] = b := by simpa using hbi
        obtain rfl : (0 : Int) = Ni := by
          rw [show poleOrder 2 3 [1, 1, 1] = 2 by decide] at hNi
          simpa using hNi
        omega
  obtain ⟨st', -, hw⟩ := C87_frob_matrix_J h (by norm_num) true [] [] _ rfl 5 [1, 0] T hTr [2, 0] r hr
    (fun _ _ => .error .ub)
  exact ⟨la, D, T, r, st', h, hlen, hw⟩

end

end Verif
