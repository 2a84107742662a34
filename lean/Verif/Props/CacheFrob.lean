import Verif.Lemmas.CacheFrobStill
import Verif.Props.Cache
import Verif.Props.FrobMatrix

/-!
Property C54: the dictionaries of `de_Rham_local` never change what the Frobenius functions of `hypersurface` return.
Property C55: after `compute_everything_J` these functions only read the dictionaries, so that the iterations of the
parallel loop of `frob_matrix_J` share no location that one of them writes.
-/

namespace Verif

open Spec MvPolynomial

section

variable {q : Nat}

theorem hreached_ok {solve : Solver (ZMod q)} {D : DR (ZMod q)} {sm : Bool} {pre : List (HCall q)} {outs : List (HOut q)}
    {st : JCache q} (hpre : runCallsH solve D sm pre (JCache.empty q) = .ok (outs, st)) : CacheOK solve D st := by
  obtain ⟨h1, h2⟩ := sim_hcalls (solve := solve) (D := D) sm pre _ cacheOK_empty
  cases hv : pre.mapM (fun c => c.value solve D) with
  | error e => rw [h2 e hv] at hpre; cases hpre
  | ok a =>
    obtain ⟨st', e, h⟩ := h1 a hv
    rw [e] at hpre
    cases hpre
    exact h

/-- **C54.**  After any sequence `pre` of calls on a new object, Frobenius functions included, run with either setting
of `save_memory`, a call returns exactly (value or failure) what it returns on an object whose dictionaries are empty,
under either setting. -/
theorem C54_history (solve : Solver (ZMod q)) (D : DR (ZMod q)) (sm sm' : Bool) (pre : List (HCall q))
    (outs : List (HOut q)) (st : JCache q) (hpre : runCallsH solve D sm pre (JCache.empty q) = .ok (outs, st))
    (c : HCall q) : (c.run solve D sm st).map Prod.fst = c.fresh solve D sm' := by
  rw [HCall.fresh, (sim_hcall sm c).map_fst (hreached_ok hpre), (sim_hcall sm' c).map_fst cacheOK_empty]

/-- **C54, the values.**  The value is the one of the functions without dictionaries, so that C31, C32, C33 and C47
are statements about the values returned by every call in every sequence. -/
theorem C54_value (solve : Solver (ZMod q)) (D : DR (ZMod q)) (sm : Bool) (c : HCall q) :
    c.fresh solve D sm = c.value solve D := by
  rw [HCall.fresh, (sim_hcall sm c).map_fst cacheOK_empty]

/-- **C54, whole sequences.** -/
theorem C54_sequence (solve : Solver (ZMod q)) (D : DR (ZMod q)) (sm sm' : Bool) (cs : List (HCall q)) :
    (runCallsH solve D sm cs (JCache.empty q)).map Prod.fst = cs.mapM (fun c => c.fresh solve D sm') := by
  rw [(sim_hcalls sm cs).map_fst cacheOK_empty]
  congr 1
  funext c
  rw [HCall.fresh, (sim_hcall sm' c).map_fst cacheOK_empty]

/-- **C54, order.**  If a sequence of calls completes, then every rearrangement completes, under either setting of
`save_memory`, and each call returns the same value. -/
theorem C54_order (solve : Solver (ZMod q)) (D : DR (ZMod q)) (sm sm' : Bool) (cs cs' : List (HCall q))
    (hp : cs.Perm cs') (outs : List (HOut q)) (st : JCache q)
    (h : runCallsH solve D sm cs (JCache.empty q) = .ok (outs, st)) :
    ∃ outs' st', runCallsH solve D sm' cs' (JCache.empty q) = .ok (outs', st') ∧
      (cs.zip outs).Perm (cs'.zip outs') := by
  have h1 := C54_sequence solve D sm sm cs
  have h2 := C54_sequence solve D sm' sm cs'
  rw [h] at h1
  obtain ⟨outs', h3, hperm⟩ := mapM_perm hp h1.symm
  rw [h3] at h2
  cases hr : runCallsH solve D sm' cs' (JCache.empty q) with
  | error e => rw [hr] at h2; cases h2
  | ok x =>
    rw [hr] at h2
    obtain ⟨o, st'⟩ := x
    have : o = outs' := Except.ok.inj h2
    subst this
    exact ⟨o, st', rfl, hperm⟩

/-! ### C55 -/

variable {solve : Solver (ZMod q)} {p' n d : Nat} {f : MonMap (ZMod q)} {D : DR (ZMod q)}

theorem sim_run {α : Type} {x : JM q α} {y : Res α} (h : Sim solve D x y) {st st' : JCache q} {a : α}
    (hst : CacheOK solve D st) (e : x st = .ok (a, st')) : y = .ok a ∧ CacheOK solve D st' := by
  obtain ⟨h1, h2⟩ := h st hst
  cases hy : y with
  | error e' => rw [h2 e' hy] at e; cases e
  | ok b =>
    obtain ⟨s, e', hs⟩ := h1 b hy
    rw [e'] at e
    obtain ⟨rfl, rfl⟩ := Prod.mk.inj (Except.ok.inj e)
    exact ⟨rfl, hs⟩

theorem jfrz_run {α : Type} {x : JM q α} {y : Res α} (h : Sim solve D x y) {st : JCache q}
    (hst : CacheOK solve D st) (hf : JFrz st x y) : x st = y.map (fun a => (a, st)) := by
  cases hy : y with
  | error e => rw [(h st hst).2 e hy]; rfl
  | ok a => rw [hf a hy]; rfl

theorem everythingJ_fullC (hC : Constructed solve p' f n d D) (hn : 1 ≤ n) {sm : Bool} {st st' : JCache q}
    (hst : CacheOK solve D st) (h : cEverythingJ solve D sm st = .ok ((), st')) : JFull solve D st' := by
  obtain ⟨rfl, rfl, hI⟩ := hC.init
  have hd := hI.ok.hd
  obtain ⟨Ld, hLd, eLd, -⟩ := D.list_ok hI.ok D.d (by omega) (by nlinarith)
  obtain ⟨Ln, hLn, eLn, -⟩ := D.list_ok hI.ok D.n (by omega) (by nlinarith)
  exact everythingJ_full sm eLd (fun v hv => (hLd.2 v).2 hv) eLn (fun v hv => (hLn.2 v).2 hv) hst h

theorem reached_nonneg (hC : Constructed solve p' f n d D) {T : List (MonMap (ZMod q))} (hT : Reached n f T) :
    ∀ k T', computeFpow D.f T k = .ok T' → NonNegTable T' := by
  intro k T' h P hP t ht
  obtain ⟨-, -, hI⟩ := hC.init
  rw [hI.f_eq] at h
  obtain ⟨powers, hp⟩ := hT.step h
  obtain ⟨S, a1, a2, -, -⟩ := fpowCalls_ok hC.wf hC.hom powers (tableOK_start n d f)
  rw [hp] at a1
  obtain rfl := Except.ok.inj a1
  obtain ⟨i, hi, rfl⟩ := List.getElem_of_mem hP
  exact ((a2.entry i _ (List.getElem?_eq_getElem hi)).1.1 t ht).2

theorem basis_nonneg (hC : Constructed solve p' f n d D) : ∀ b ∈ D.basis, ∀ x ∈ b, (0 : Int) ≤ x := by
  intro b hb
  obtain ⟨-, -, hI⟩ := hC.init
  obtain ⟨k, -, -, h⟩ := hI.basis.pole b hb
  exact h.2.1

theorem frobZ_frozen (hC : Constructed solve p' f n d D) (hn : 1 ≤ n) {st : JCache q} (hst : JFull solve D st) (sm : Bool)
    (p : Nat) (kind : LoopKind) {T : List (MonMap (ZMod q))} (hT : Reached n f T) (coord N : Nat) :
    cFrobJZ solve D sm p kind T coord N st =
      (frobFun (varZ solve D p kind) solve D p T coord N).map (fun r => (r, st)) := by
  obtain ⟨rfl, rfl, hI⟩ := hC.init
  exact jfrz_run (sim_frobFun (jtermSim_Z sm p kind) _ _ _ _) hst.ok
    (jfrz_frobFun hst (termStill_Z hst hn hI.ok.hd sm p kind) (basis_nonneg hC) (reached_nonneg hC hT) coord N)

/-- **C55.**  On a constructed object with `n ≥ 1`: after any calls on a new object followed by `compute_everything_J`,
a call of `frob_J_ZZ` with any value of `loop`, any coordinate, precision and table of powers made by earlier calls
writes into none of the dictionaries.  It returns what the function without dictionaries returns. -/
theorem C55_frob_J_ZZ (hC : Constructed solve p' f n d D) (hn : 1 ≤ n) (sm : Bool) (pre : List (HCall q))
    (outs : List (HOut q)) (st st' : JCache q) (hpre : runCallsH solve D sm pre (JCache.empty q) = .ok (outs, st))
    (he : cEverythingJ solve D sm st = .ok ((), st')) (p : Nat) (kind : LoopKind) (T : List (MonMap (ZMod q)))
    (hT : Reached n f T) (coord N : Nat) :
    cFrobJZ solve D sm p kind T coord N st' =
      (frobFun (varZ solve D p kind) solve D p T coord N).map (fun r => (r, st')) :=
  frobZ_frozen hC hn (everythingJ_fullC hC hn (hreached_ok hpre) he) sm p kind hT coord N

/-- **C55, `frob_J_ZZ_p`.** -/
theorem C55_frob_J_ZZ_p (hC : Constructed solve p' f n d D) (hn : 1 ≤ n) (sm : Bool) (pre : List (HCall q))
    (outs : List (HOut q)) (st st' : JCache q) (hpre : runCallsH solve D sm pre (JCache.empty q) = .ok (outs, st))
    (he : cEverythingJ solve D sm st = .ok ((), st')) (p : Nat) (kind : LoopKind) (T : List (MonMap (ZMod q)))
    (hT : Reached n f T) (coord N : Nat) :
    cFrobJP solve D p kind T coord N st' =
      (frobFun (varP solve D p kind) solve D p T coord N).map (fun r => (r, st')) := by
  have hst := everythingJ_fullC hC hn (hreached_ok hpre) he
  obtain ⟨rfl, rfl, hI⟩ := hC.init
  exact jfrz_run (sim_frobFun (jtermSim_P p kind) _ _ _ _) hst.ok
    (jfrz_frobFun hst (termStill_P hst hn hI.ok.hd p kind) (basis_nonneg hC) (reached_nonneg hC hT) coord N)

theorem iterJ_frozen (hC : Constructed solve p' f n d D) (hn : 1 ≤ n) {st : JCache q} (hst : JFull solve D st) (sm : Bool)
    (p : Nat) {T : List (MonMap (ZMod q))} (hT : Reached n f T) (N : List Int) (rows : Nat → CVec (ZMod q)) (i : Nat) :
    JFrz st (cFrobIter solve D sm p N (T, rows) i) (frobIter solve D p N (T, rows) i) := by
  rw [cFrobIter, frobIter]
  refine JFrz.bind (JFrz.pureRes _) (fun b _ => jfrz_ite (fun _ => JFrz.pureRes _) (fun _ => JFrz.bind (JFrz.pureRes _)
    (fun Ni _ => jfrz_ite (fun _ => JFrz.bind ?_ (fun _ _ => JFrz.pureRes _)) (fun _ => JFrz.pure _))))
  intro a ha
  rw [frobZ_frozen hC hn hst sm p .poly hT]
  show ((frobJ solve D p T i Ni.toNat).map _) = _
  rw [ha]
  rfl

/-- **C55, one iteration.**  In the state in which the parallel loop of `frob_matrix_J` starts (`compute_everything_J`
and the table of powers done), an iteration changes no dictionary, not the table of powers, and no row but its own. -/
theorem C55_iteration (hC : Constructed solve p' f n d D) (hn : 1 ≤ n) (sm : Bool) (pre : List (HCall q))
    (outs : List (HOut q)) (st st' : JCache q) (hpre : runCallsH solve D sm pre (JCache.empty q) = .ok (outs, st))
    (he : cEverythingJ solve D sm st = .ok ((), st')) (p : Nat) (T T0 : List (MonMap (ZMod q))) (hT : Reached n f T)
    (N : List Int) (hT0 : frobPrepare true D.f T N = .ok T0) (rows : Nat → CVec (ZMod q)) (i : Nat)
    (s : List (MonMap (ZMod q)) × (Nat → CVec (ZMod q))) (st'' : JCache q)
    (h : cFrobIter solve D sm p N (T0, rows) i st' = .ok (s, st'')) :
    st'' = st' ∧ s.1 = T0 ∧ ∀ j, j ≠ i → s.2 j = rows j := by
  have hfull := everythingJ_fullC hC hn (hreached_ok hpre) he
  have hlen : ∀ x ∈ N, x ≤ T0.length := by
    intro x hx
    have h2 := hT0
    unfold frobPrepare at h2
    rw [if_pos rfl, Res.bind_eq_ok] at h2
    obtain ⟨mx, m1, m2⟩ := h2
    have := maxVec_le m1 x hx
    have := computeFpow_length m2
    omega
  have hT0r : Reached n f T0 := by
    have h2 := hT0
    unfold frobPrepare at h2
    rw [if_pos rfl, Res.bind_eq_ok] at h2
    obtain ⟨mx, -, h2⟩ := h2
    obtain ⟨-, -, hI⟩ := hC.init
    exact hT.step (hI.f_eq ▸ h2)
  obtain ⟨hv, -⟩ := sim_run (sim_frobIter sm p N (T0, rows) i) hfull.ok h
  rw [iterJ_frozen hC hn hfull sm p hT0r N rows i s hv] at h
  refine ⟨(Prod.mk.inj (Except.ok.inj h)).2.symm, iter_table hlen hv, fun j hj => ?_⟩
  unfold frobIter at hv
  obtain ⟨b, -, hv⟩ := Res.bind_eq_ok.1 hv
  split at hv
  · cases hv
  obtain ⟨Ni, -, hv⟩ := Res.bind_eq_ok.1 hv
  split at hv
  · obtain ⟨r, -, hv⟩ := Res.bind_eq_ok.1 hv
    split at hv
    · obtain rfl := Except.ok.inj hv
      exact if_neg hj
    · cases hv
  · obtain rfl := Except.ok.inj hv
    rfl

/-- **C55, the whole loop.**  With several threads, for any order of the iterations, `frob_matrix_J` leaves the
dictionaries as `compute_everything_J` left them, and the table of powers as prepared before the loop. -/
theorem C55_frob_matrix_J (hC : Constructed solve p' f n d D) (hn : 1 ≤ n) (sm : Bool) (pre : List (HCall q))
    (outs : List (HOut q)) (st : JCache q) (hpre : runCallsH solve D sm pre (JCache.empty q) = .ok (outs, st)) (p : Nat)
    (order : List Nat) (T : List (MonMap (ZMod q))) (hT : Reached n f T) (N : List Int)
    (r : CMat (ZMod q) × List (MonMap (ZMod q))) (st'' : JCache q)
    (h : cFrobMatrixJ solve D sm p true order T N st = .ok (r, st'')) :
    cEverythingJ solve D sm st = .ok ((), st'') ∧ frobPrepare true D.f T N = .ok r.2 := by
  rw [cFrobMatrixJ] at h
  obtain ⟨_, s1, e1, h1⟩ := JM.bind_eq_ok h
  have hs1 := (JM.pureRes_eq_ok e1).2
  have h2 : (cEverythingJ solve D sm >>= fun _ => (do
      let T0 ← JM.pureRes (frobPrepare true D.f T N)
      let s ← order.foldlM (cFrobIter solve D sm p N) (T0, fun _ => CVec.mk' D.basis.length (fun _ => 0))
      pure ((⟨D.basis.length, D.basis.length, fun r c => (s.2 c).e r⟩ : CMat (ZMod q)), s.1) :
        JM q (CMat (ZMod q) × List (MonMap (ZMod q))))) st = .ok (r, st'') := by
    rw [hs1] at h1
    simpa using h1
  clear h h1 e1 hs1 s1
  obtain ⟨⟨⟩, st', he, h3⟩ := JM.bind_eq_ok h2
  clear h2
  obtain ⟨T0, s2, e2, h4⟩ := JM.bind_eq_ok h3
  obtain ⟨hT0, hs2⟩ := JM.pureRes_eq_ok e2
  rw [hs2] at h4
  clear h3 e2 hs2 s2
  obtain ⟨s, s3, e3, h5⟩ := JM.bind_eq_ok h4
  clear h4
  have key : ∀ (L : List Nat) (rows : Nat → CVec (ZMod q)) {s : List (MonMap (ZMod q)) × (Nat → CVec (ZMod q))}
      {s3 : JCache q}, L.foldlM (cFrobIter solve D sm p N) (T0, rows) st' = .ok (s, s3) → s3 = st' ∧ s.1 = T0 := by
    intro L
    induction L with
    | nil =>
      intro rows s s3 h
      obtain ⟨a1, a2⟩ := Prod.mk.inj (Except.ok.inj h)
      exact ⟨a2.symm, by rw [← a1]⟩
    | cons i L ih =>
      intro rows s s3 h
      rw [List.foldlM_cons] at h
      obtain ⟨⟨T1, rows1⟩, s4, e4, h'⟩ := JM.bind_eq_ok h
      obtain ⟨a1, a2, -⟩ := C55_iteration hC hn sm pre outs st st' hpre he p T T0 hT N hT0 rows i _ _ e4
      rw [a1, show T1 = T0 from a2] at h'
      exact ih rows1 h'
  obtain ⟨a1, a2⟩ := key order _ e3
  obtain ⟨b1, b2⟩ := Prod.mk.inj (Except.ok.inj h5)
  rw [← b1, ← b2, a1]
  exact ⟨he, hT0.trans (congrArg _ a2.symm)⟩

end

local instance cacheFrobPrime : Fact (Nat.Prime 5) := ⟨by norm_num⟩

/-- The elliptic curve modulo 25 with precisions `[2, 0]`: the loop runs to the end after a sequence of calls. -/
example : ∃ (la : LinAlg (ZMod 5)) (D : DR (ZMod (5 ^ 2))) (T : List (MonMap (ZMod (5 ^ 2)))),
    Constructed (padicSolver 5 2 la true 2) 5 exCurve 2 3 D ∧ Reached 2 exCurve T ∧
    ∃ outs st, runCallsH (padicSolver 5 2 la true 2) D true [.frobZ 5 .mat T 0 2, .base (.monomial [1, 2, 3])]
        (JCache.empty _) = .ok (outs, st) ∧
      ∃ r st', cFrobMatrixJ (padicSolver 5 2 la true 2) D true 5 true [1, 0] T [2, 0] st = .ok (r, st') := by
  have : Fact (1 < 5 ^ 2) := ⟨by norm_num⟩
  obtain ⟨la, hla⟩ := exists_linAlg (ZMod 5)
  obtain ⟨D, h, hb⟩ := exCurve_padic la hla true
  obtain ⟨T, hT, -⟩ := C29_fpow_table h.wf h.hom [3, 1]
  have hTr : Reached 2 exCurve T := ⟨_, hT⟩
  have hlen : D.basis.length = 2 := by rw [hb]; rfl
  have := nontrivial_pow (p := 5) (N := 2) (by norm_num)
  have hfrob : ∀ kind, ∃ r, frobFun (varZ (padicSolver 5 2 la true 2) D 5 kind) (padicSolver 5 2 la true 2) D 5 T 0 2 =
      .ok r := by
    intro kind
    refine (C47_frob_J_partial (by norm_num) h (by norm_num) kind 0 2 [0, 0, 0] (by rw [hb]; rfl) (by norm_num)
      (by decide) ?_ ?_ _ T hT).2.1 (by decide +kernel)
    · intro i j hj hi
      interval_cases i <;> interval_cases j <;> decide
    · intro j _ hj
      exact absurd hj (by rw [show 2 / 5 = 0 from rfl, show poleOrder 2 3 [0, 0, 0] = 1 by decide]; omega)
  have hmat : ∃ r, frobMatrixJ (padicSolver 5 2 la true 2) D 5 true [1, 0] T [2, 0] = .ok r := by
    refine (C33_columns h (by norm_num) hTr true (by rw [hlen]; exact List.Perm.swap 0 1 []) [2, 0]
      (fun _ _ _ _ _ => ?_)).2.2 ⟨rfl, ?_⟩
    · rw [show 2 / 5 = 0 from rfl]; exact Nat.zero_le _
    · intro i b Ni hbi hNi hp
      have hi : i < 2 := by rw [← hlen]; exact (List.getElem?_eq_some_iff.1 hbi).1
      rw [hb] at hbi
      interval_cases i
      · obtain rfl : [0, 0, 0] = b := by simpa using hbi
        obtain rfl : (2 : Int) = Ni := by
          rw [show poleOrder 2 3 [0, 0, 0] = 1 by decide] at hNi
          simpa using hNi
        exact hfrob .poly
      · obtain rfl : [1, 1, 1] = b := by simpa using hbi
        obtain rfl : (0 : Int) = Ni := by
          rw [show poleOrder 2 3 [1, 1, 1] = 2 by decide] at hNi
          simpa using hNi
        omega
  refine ⟨la, D, T, h, hTr, ?_⟩
  obtain ⟨r1, hr1⟩ := hfrob .mat
  obtain ⟨r2, hr2⟩ := hmat
  obtain ⟨H, hH, -⟩ := C24_monomial_to_basis h (by decide) [1, 2, 3] rfl (by decide) 2 (by decide)
  have hs := C54_sequence (padicSolver 5 2 la true 2) D true true [.frobZ 5 .mat T 0 2, .base (.monomial [1, 2, 3])]
  have e1 : (HCall.frobZ 5 .mat T 0 2 : HCall (5 ^ 2)).value (padicSolver 5 2 la true 2) D = .ok (.frob r1) := by
    rw [HCall.value, hr1]; rfl
  have e2 : (HCall.base (.monomial [1, 2, 3]) : HCall (5 ^ 2)).value (padicSolver 5 2 la true 2) D =
      .ok (.base (.vec H)) := by
    rw [HCall.value, JCall.value, hH]; rfl
  simp only [List.mapM_cons, C54_value, e1, e2, List.mapM_nil, Res.bind_ok, Res.pure_eq] at hs
  cases hr : runCallsH (padicSolver 5 2 la true 2) D true [.frobZ 5 .mat T 0 2, .base (.monomial [1, 2, 3])]
      (JCache.empty _) with
  | error e => rw [hr] at hs; cases hs
  | ok x =>
    refine ⟨x.1, x.2, rfl, ?_⟩
    have hhist := C54_history (padicSolver 5 2 la true 2) D true true _ _ _ hr (.frobMatrix 5 true [1, 0] T [2, 0])
    have he : (JCall.everything : JCall (5 ^ 2)).value (padicSolver 5 2 la true 2) D = .ok .unit := by
      obtain ⟨st, e, -⟩ := C28_everything h (by decide) true [] [] _ rfl
      rw [← C28_value _ D true, JCall.fresh, e]; rfl
    have hval : (HCall.frobMatrix 5 true [1, 0] T [2, 0] : HCall (5 ^ 2)).value (padicSolver 5 2 la true 2) D =
        .ok (.frobMat r2) := by
      rw [HCall.value, check_pos (by rw [h.init.1]; rfl), Res.bind_ok]
      simp only [if_true, he, Res.bind_ok, hr2]
      rfl
    rw [C54_value, hval, HCall.run] at hhist
    cases hm : cFrobMatrixJ (padicSolver 5 2 la true 2) D true 5 true [1, 0] T [2, 0] x.2 with
    | ok y => exact ⟨y.1, y.2, rfl⟩
    | error e =>
      exfalso
      change ((cFrobMatrixJ (padicSolver 5 2 la true 2) D true 5 true [1, 0] T [2, 0] x.2 >>= fun y => _).map Prod.fst) = _
        at hhist
      rw [hm] at hhist
      cases hhist

end Verif
