import Verif.Lemmas.CacheNDStill
import Verif.Props.CacheND

/-!
Property C53: after `compute_everything_ND` the function `frob_ND` (the flint version) only reads the dictionaries, so
that the iterations of the parallel loop of `frob_matrix_ND` share no location that one of them writes.
-/

namespace Verif

open Spec MvPolynomial

section

variable {q : Nat} {solve : Solver (ZMod q)} {p' n d : Nat} {f : MonMap (ZMod q)} {N : ND (ZMod q)}

theorem nsim_run {α : Type} {x : NM q α} {y : Res α} (h : NSim solve N x y) {st st' : NDCache q} {a : α}
    (hst : NDCacheOK solve N st) (e : x st = .ok (a, st')) : y = .ok a ∧ NDCacheOK solve N st' := by
  obtain ⟨h1, h2⟩ := h st hst
  cases hy : y with
  | error e' => rw [h2 e' hy] at e; cases e
  | ok b =>
    obtain ⟨s, e', hs⟩ := h1 b hy
    rw [e'] at e
    obtain ⟨rfl, rfl⟩ := Prod.mk.inj (Except.ok.inj e)
    exact ⟨rfl, hs⟩

theorem frz_run {α : Type} {x : NM q α} {y : Res α} (h : NSim solve N x y) {st : NDCache q}
    (hst : NDCacheOK solve N st) (hf : Frz st x y) : x st = y.map (fun a => (a, st)) := by
  cases hy : y with
  | error e => rw [(h st hst).2 e hy]; rfl
  | ok a => rw [hf a hy]; rfl

/-- `compute_everything_ND` leaves a state in which nothing is missing. -/
theorem everything_full [Fact (1 < q)] (hC : ConstructedND solve p' f n d N) (hn : 1 ≤ n) (hn' : n ≤ 61)
    {sm J ndZZ : Bool} {st st' : NDCache q} (hst : NDCacheOK solve N st)
    (h : cEverythingND solve N sm J ndZZ st = .ok ((), st')) : NDFull solve N st' := by
  obtain ⟨rfl, rfl, hI⟩ := hC.init
  have : Nontrivial (ZMod q) := ZMod.nontrivial q
  have hd := hI.base.ok.hd
  obtain ⟨Ld, hLd, eLd, -⟩ := N.list_ok hI.base.ok N.d (by omega) (by nlinarith)
  have hne : ∀ u ∈ Ld, redMatNDPoly solve N u ≠ .ok [] := fun u hu =>
    redMatNDPoly_ne hC.solver (hI.nd hn) hn' ((hLd.2 u).1 hu)
  have key : ∀ {s : NDCache q}, NDCacheOK solve N s → (do
      let Ld ← NM.pureRes (N.list N.d)
      forM Ld (cEveryND solve N sm ndZZ) : NM q PUnit) s = .ok ((), st') → NDFull solve N st' := by
    intro s hs h
    rw [eLd] at h
    have h : forM Ld (cEveryND solve N sm ndZZ) s = .ok ((), st') := h
    obtain ⟨k1, -, k3⟩ := forM_has sm ndZZ Ld hne hs h
    exact ⟨k3, fun u hu => k1 u ((hLd.2 u).2 hu)⟩
  rw [cEverythingND] at h
  cases J with
  | false => exact key hst (by simpa using h)
  | true =>
    have h : (NM.liftJ (cEverythingJ solve N.toDR sm) >>= fun _ => (do
      let Ld ← NM.pureRes (N.list N.d)
      forM Ld (cEveryND solve N sm ndZZ) : NM q PUnit)) st = .ok ((), st') := by simpa using h
    obtain ⟨_, s1, e1, e2⟩ := NM.bind_eq_ok h
    refine key ?_ e2
    have e3 : NM.liftJ (JCall.run solve N.toDR sm .everything) st = .ok (.unit, s1) := by
      rw [NM.liftJ.eq_def] at e1 ⊢
      cases hx : cEverythingJ solve N.toDR sm st.j with
      | error e' => rw [hx] at e1; cases e1
      | ok b =>
        rw [hx] at e1
        have : JCall.run solve N.toDR sm .everything st.j = .ok (.unit, b.2) := by
          rw [JCall.run]
          show (cEverythingJ solve N.toDR sm st.j >>= fun x => _) = _
          rw [hx]
          rfl
        rw [this]
        obtain ⟨-, rfl⟩ := Prod.mk.inj (Except.ok.inj e1)
        rfl
    exact (nsim_run (NSim.liftJ (sim_call sm _)) hst e3).2

theorem reached_good (hC : ConstructedND solve p' f n d N) {T : List (MonMap (ZMod q))} (hT : Reached n f T) :
    GoodTable N T := by
  intro k T' h P hP t ht
  obtain ⟨-, -, hI⟩ := hC.init
  rw [hI.base.f_eq] at h
  obtain ⟨powers, hp⟩ := hT.step h
  obtain ⟨S, a1, a2, -, -⟩ := fpowCalls_ok hC.wf hC.hom powers (tableOK_start n d f)
  rw [hp] at a1
  obtain rfl := Except.ok.inj a1
  obtain ⟨i, hi, rfl⟩ := List.getElem_of_mem hP
  exact ((a2.entry i _ (List.getElem?_eq_getElem hi)).1.1 t ht).2

theorem frob_frozen (hC : ConstructedND solve p' f n d N) {st : NDCache q} (hst : NDFull solve N st) (sm : Bool)
    (p : Nat) {T : List (MonMap (ZMod q))} (hT : Reached n f T) (coord prec : Nat) :
    cFrobNDFlint solve N sm p T coord prec st = (frobNDFlint solve N p T coord prec).map (fun r => (r, st)) := by
  have hc := cokEq_of hC
  refine frz_run (nsim_frobFunND hc (termSim_flint sm p) _ _ _ _ _) hst.ok
    (frz_frobFlint hst hc (fun b hb => ?_) sm p (reached_good hC hT) coord prec)
  obtain ⟨-, -, hI⟩ := hC.init
  obtain ⟨k, -, -, h⟩ := hI.base.basis.pole b hb
  exact h.2.1

/-- **C53.**  On a constructed object with `1 ≤ n ≤ 61`: after any calls on a new object followed by
`compute_everything_ND` (with any arguments), a call of `frob_ND` with any coordinate, precision and table of powers
made by earlier calls writes into none of the dictionaries.  It returns what the function without dictionaries
returns. -/
theorem C53_frob_ND [Fact (1 < q)] (hC : ConstructedND solve p' f n d N) (hn : 1 ≤ n) (hn' : n ≤ 61) (sm : Bool)
    (pre : List (NDCall q)) (outs : List (NDOut q)) (st st' : NDCache q)
    (hpre : runCallsND solve N sm pre (NDCache.empty q) = .ok (outs, st)) (J ndZZ : Bool)
    (he : cEverythingND solve N sm J ndZZ st = .ok ((), st')) (p : Nat) (T : List (MonMap (ZMod q)))
    (hT : Reached n f T) (coord prec : Nat) :
    cFrobNDFlint solve N sm p T coord prec st' = (frobNDFlint solve N p T coord prec).map (fun r => (r, st')) :=
  frob_frozen hC (everything_full hC hn hn' (ndReached_ok hC hpre) he) sm p hT coord prec

theorem iter_frozen (hC : ConstructedND solve p' f n d N) {st : NDCache q} (hst : NDFull solve N st) (sm : Bool)
    (p : Nat) {T : List (MonMap (ZMod q))} (hT : Reached n f T) (prec : List Int) (rows : Nat → CVec (ZMod q)) (i : Nat) :
    Frz st (cFrobIterND solve N sm p prec (T, rows) i) (frobIterND solve N p prec (T, rows) i) := by
  rw [cFrobIterND, frobIterND]
  refine Frz.bind (Frz.pureRes _) (fun b _ => frz_ite (fun _ => Frz.pureRes _) (fun _ => Frz.bind (Frz.pureRes _)
    (fun Ni _ => frz_ite (fun _ => Frz.bind ?_ (fun _ _ => Frz.pureRes _)) (fun _ => Frz.pure _))))
  intro a ha
  rw [frob_frozen hC hst sm p hT, ha]
  rfl

/-- **C53, one iteration.**  In the state in which the parallel loop of `frob_matrix_ND` starts (`compute_everything_ND`
and the table of powers done), an iteration changes no dictionary, not the table of powers, and no row but its own. -/
theorem C53_iteration [Fact (1 < q)] (hC : ConstructedND solve p' f n d N) (hn : 1 ≤ n) (hn' : n ≤ 61) (sm : Bool)
    (pre : List (NDCall q)) (outs : List (NDOut q)) (st st' : NDCache q)
    (hpre : runCallsND solve N sm pre (NDCache.empty q) = .ok (outs, st))
    (he : cEverythingND solve N sm false false st = .ok ((), st')) (p : Nat) (T T0 : List (MonMap (ZMod q)))
    (hT : Reached n f T) (prec : List Int) (hT0 : frobPrepare true N.f T prec = .ok T0)
    (rows : Nat → CVec (ZMod q)) (i : Nat) (s : List (MonMap (ZMod q)) × (Nat → CVec (ZMod q))) (st'' : NDCache q)
    (h : cFrobIterND solve N sm p prec (T0, rows) i st' = .ok (s, st'')) :
    st'' = st' ∧ s.1 = T0 ∧ ∀ j, j ≠ i → s.2 j = rows j := by
  have hfull := everything_full hC hn hn' (ndReached_ok hC hpre) he
  have hT0r : Reached n f T0 := by
    have h2 := hT0
    unfold frobPrepare at h2
    rw [if_pos rfl, Res.bind_eq_ok] at h2
    obtain ⟨mx, -, h2⟩ := h2
    obtain ⟨-, -, hI⟩ := hC.init
    exact hT.step (hI.base.f_eq ▸ h2)
  obtain ⟨hv, -⟩ := nsim_run (nsim_frobIterND (cokEq_of hC) sm p prec (T0, rows) i) hfull.ok h
  rw [iter_frozen hC hfull sm p hT0r prec rows i s hv] at h
  have hlen := prepare_len hT0
  refine ⟨(Prod.mk.inj (Except.ok.inj h)).2.symm, ?_⟩
  rw [frobIterND_eq] at hv
  obtain ⟨b, Ni, -, -, h6, hc | ⟨hp, r, e1, -, rfl⟩⟩ := mIter_ok_iff.1 hv
  · obtain ⟨-, rfl⟩ := hc
    exact ⟨rfl, fun _ _ => rfl⟩
  · have hF := frobNDFlint_fills _ _ _ _ e1
    have := hlen Ni (iget_mem h6)
    rw [computeFpow_of_lt (by omega)] at hF
    exact ⟨(Except.ok.inj hF).symm, fun j hj => if_neg hj⟩

/-- **C53, the whole loop.**  With several threads, for any order of the iterations, `frob_matrix_ND` leaves the
dictionaries as `compute_everything_ND` left them, and the table of powers as prepared before the loop. -/
theorem C53_frob_matrix_ND [Fact (1 < q)] (hC : ConstructedND solve p' f n d N) (hn : 1 ≤ n) (hn' : n ≤ 61) (sm : Bool)
    (pre : List (NDCall q)) (outs : List (NDOut q)) (st : NDCache q)
    (hpre : runCallsND solve N sm pre (NDCache.empty q) = .ok (outs, st)) (p : Nat) (order : List Nat)
    (T : List (MonMap (ZMod q))) (hT : Reached n f T) (prec : List Int)
    (r : CMat (ZMod q) × List (MonMap (ZMod q))) (st'' : NDCache q)
    (h : cFrobMatrixND solve N sm p true order T prec st = .ok (r, st'')) :
    cEverythingND solve N sm false false st = .ok ((), st'') ∧ frobPrepare true N.f T prec = .ok r.2 := by
  rw [cFrobMatrixND] at h
  obtain ⟨_, s1, e1, h1⟩ := NM.bind_eq_ok h
  have hs1 : s1 = st := by
    cases hx : check (decide (N.n = prec.length)) with
    | error e => rw [hx] at e1; cases e1
    | ok a => rw [hx] at e1; exact (Prod.mk.inj (Except.ok.inj e1)).2.symm
  have h2 : (cEverythingND solve N sm false false >>= fun _ => (do
      let T0 ← NM.pureRes (frobPrepare true N.f T prec)
      let s ← order.foldlM (cFrobIterND solve N sm p prec) (T0, fun _ => CVec.mk' N.basis.length (fun _ => 0))
      pure ((⟨N.basis.length, N.basis.length, fun r c => (s.2 c).e r⟩ : CMat (ZMod q)), s.1) :
        NM q (CMat (ZMod q) × List (MonMap (ZMod q))))) st = .ok (r, st'') := by
    rw [hs1] at h1
    simpa using h1
  clear h h1 e1 hs1 s1
  obtain ⟨⟨⟩, st', he, h3⟩ := NM.bind_eq_ok h2
  clear h2
  cases hT0 : frobPrepare true N.f T prec with
  | error e => rw [hT0] at h3; cases h3
  | ok T0 =>
  rw [hT0] at h3
  have h4 : (do
      let s ← order.foldlM (cFrobIterND solve N sm p prec) (T0, fun _ => CVec.mk' N.basis.length (fun _ => 0))
      pure ((⟨N.basis.length, N.basis.length, fun r c => (s.2 c).e r⟩ : CMat (ZMod q)), s.1) :
        NM q (CMat (ZMod q) × List (MonMap (ZMod q)))) st' = .ok (r, st'') := h3
  clear h3
  obtain ⟨s, s3, e3, h5⟩ := NM.bind_eq_ok h4
  clear h4
  have key : ∀ (L : List Nat) (rows : Nat → CVec (ZMod q)) {s : List (MonMap (ZMod q)) × (Nat → CVec (ZMod q))}
      {s3 : NDCache q}, L.foldlM (cFrobIterND solve N sm p prec) (T0, rows) st' = .ok (s, s3) → s3 = st' ∧ s.1 = T0 := by
    intro L
    induction L with
    | nil =>
      intro rows s s3 h
      obtain ⟨a1, a2⟩ := Prod.mk.inj (Except.ok.inj h)
      exact ⟨a2.symm, by rw [← a1]⟩
    | cons i L ih =>
      intro rows s s3 h
      rw [List.foldlM_cons] at h
      obtain ⟨⟨T1, rows1⟩, s4, e4, h'⟩ := NM.bind_eq_ok h
      obtain ⟨a1, a2, -⟩ := C53_iteration hC hn hn' sm pre outs st st' hpre he p T T0 hT prec hT0 rows i _ _ e4
      rw [a1, show T1 = T0 from a2] at h'
      exact ih rows1 h'
  obtain ⟨a1, a2⟩ := key order _ e3
  obtain ⟨b1, b2⟩ := Prod.mk.inj (Except.ok.inj h5)
  rw [← b1, ← b2, a1]
  exact ⟨he, by rw [← a2]⟩

end

local instance : Fact (Nat.Prime 2) := ⟨by norm_num⟩

/-- `x^3 + y^3` modulo 8: the loop runs to the end after a sequence of calls. -/
example : ∃ (la : LinAlg (ZMod 2)) (N : ND (ZMod (2 ^ 3))) (T : List (MonMap (ZMod (2 ^ 3)))),
    ConstructedND (padicSolver 2 3 la true 3) 2 exBinary 1 3 N ∧ Reached 1 exBinary T ∧
    ∃ outs st, runCallsND (padicSolver 2 3 la true 3) N true [.everything true true, .incl [1, 2] 0]
        (NDCache.empty _) = .ok (outs, st) ∧
      ∃ r st', cFrobMatrixND (padicSolver 2 3 la true 3) N true 2 true [1, 0] T [1] st = .ok (r, st') := by
  have : Fact (1 < 2 ^ 3) := ⟨by norm_num⟩
  obtain ⟨la, hla⟩ := exists_linAlg (ZMod 2)
  obtain ⟨N, h, hb⟩ := exBinary_padicND la hla true
  obtain ⟨T, hT, -⟩ := C29_fpow_table h.wf h.hom [3, 1]
  have hTr : Reached 1 exBinary T := ⟨_, hT⟩
  have hlen : N.basis.length = 2 := by rw [hb]; rfl
  have hfl : FlintBatchOK (2 ^ 3) 2 1 3 (padicSolver 2 3 la true 3) N := Or.inr (Or.inl (by norm_num))
  refine ⟨la, N, T, h, hTr, ?_⟩
  have he : (NDCall.everything true true : NDCall (2 ^ 3)).fresh (padicSolver 2 3 la true 3) N true = .ok .unit := by
    obtain ⟨st, e, -⟩ := C52_everything h (by norm_num) (by norm_num) true [] [] _ rfl true true
    rw [NDCall.fresh, e]; rfl
  obtain ⟨M, -, hM⟩ := C52_inclusion h true [1, 2] (by unfold IsTuple NonNeg deg; decide) (by decide) 0 (by decide)
  have hs := C52_sequence h true true [.everything true true, .incl [1, 2] 0]
  simp only [List.mapM_cons, he, hM, List.mapM_nil, Res.bind_ok, Res.pure_eq] at hs
  cases hr : runCallsND (padicSolver 2 3 la true 3) N true [.everything true true, .incl [1, 2] 0] (NDCache.empty _) with
  | error e => rw [hr] at hs; cases hs
  | ok x =>
    refine ⟨x.1, x.2, rfl, ?_⟩
    obtain ⟨r, hr2⟩ : ∃ r, frobMatrixND (padicSolver 2 3 la true 3) N 2 true [1, 0] T [1] = .ok r := by
      refine (C51_columns h (by norm_num) hTr true (by rw [hlen]; exact List.Perm.swap 0 1 []) [1]).2.2 ⟨rfl, ?_⟩
      intro i b Ni hbi hNi hp
      have hi : i < 2 := by rw [← hlen]; exact (List.getElem?_eq_some_iff.1 hbi).1
      have hbi' := hbi
      rw [hb] at hbi
      have hpo : poleOrder 1 3 b = 1 := by
        interval_cases i
        · obtain rfl : [0, 1] = b := by simpa using hbi
          decide
        · obtain rfl : [1, 0] = b := by simpa using hbi
          decide
      rw [hpo] at hNi
      obtain rfl : (1 : Int) = Ni := by simpa using hNi
      refine (C49_frob_ND_flint_partial (by norm_num) h (by norm_num) hfl i 1 b hbi' (by norm_num) ?_ _ T hT).2.1 ?_
      · rw [hpo]; decide +kernel
      · rw [hpo]; decide
    have hC52 := C52_history h true true _ _ _ hr (.frobMatrix 2 true [1, 0] T [1])
    have hv : (NDCall.everything false false : NDCall (2 ^ 3)).value (padicSolver 2 3 la true 3) N = .ok .unit := by
      obtain ⟨st, e, -⟩ := C52_everything h (by norm_num) (by norm_num) true [] [] _ rfl false false
      rw [← C52_value h true, NDCall.fresh, e]; rfl
    rw [NDCall.value] at hv
    simp only [Bool.false_eq_true, if_false] at hv
    obtain ⟨Ld, eLd, hv⟩ := Res.bind_eq_ok.1 hv
    obtain ⟨_, hv, -⟩ := Res.bind_eq_ok.1 hv
    have hval : (NDCall.frobMatrix 2 true [1, 0] T [1] : NDCall (2 ^ 3)).value (padicSolver 2 3 la true 3) N =
        .ok (.frobMat r) := by
      rw [NDCall.value, check_pos (by rw [h.init.1]; rfl), Res.bind_ok]
      simp only [if_true, eLd, Res.bind_ok, hr2]
      rw [hv]
      rfl
    rw [C52_value h, hval, NDCall.run] at hC52
    cases hm : cFrobMatrixND (padicSolver 2 3 la true 3) N true 2 true [1, 0] T [1] x.2 with
    | ok y => exact ⟨y.1, y.2, rfl⟩
    | error e =>
      exfalso
      change ((cFrobMatrixND (padicSolver 2 3 la true 3) N true 2 true [1, 0] T [1] x.2 >>= fun y => _).map Prod.fst) = _
        at hC52
      rw [hm] at hC52
      cases hC52

end Verif
