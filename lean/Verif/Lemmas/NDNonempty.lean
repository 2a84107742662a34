import Verif.Lemmas.NDBatch

/-!
Column 0 of the reduction matrices of the non-degenerate object, exactly: it is never zero as a polynomial
in `u`.  So the maps of matrices are never empty.
-/

namespace Verif

open Spec MvPolynomial

variable {R : Type} [CommRing R]

theorem table_zero {n : Nat} {L : List IVec} (hL : IsTable n 0 L) : L = [List.replicate (n + 1) 0] := by
  have h0 : IsTuple (n + 1) 0 (List.replicate (n + 1) 0) :=
    ⟨by simp, by intro x hx; rw [List.mem_replicate] at hx; omega, by simp [deg]⟩
  refine hL.eq ⟨by simp, fun t => ⟨fun h => by rw [List.mem_singleton.1 h]; exact h0, fun h => ?_⟩⟩
  rw [List.mem_singleton, List.eq_replicate_iff]
  refine ⟨h.1, fun x hx => ?_⟩
  have hs : t.sum = 0 := h.2.2
  have := h.2.1
  have hle : x ≤ t.sum := List.single_le_sum this x hx
  have := this x hx
  omega

/-- Column 0 of the result, before any other column is written. -/
theorem ndColumn_zero {solve : Solver R} (hsolve : SolverOK solve) {N : ND R} (hN : NDOk solve N)
    {solves : List (List Nat × CMat R)} (hs1 : ∀ k, k < N.n → ∀ BU,
      solveND solve N.toDR (((k : Int) + 1) * N.d) = .ok BU → aget solves k = .ok BU)
    {v : IVec} (hv : IsTuple (N.n + 1) N.d v) :
    ∃ (res' : MonMap (CMat R)) (F : Fin (N.n + 1) → R) (P : MvPolynomial (Fin (N.n + 1)) R),
      ndColumn N solves v 0 [] = .ok res' ∧ RES N.n N.ndBasis.length res' ∧
      xpow R (ev N.n v) = ∑ i, F i • xd i (DRpoly N.toDR) + P ∧
      ∀ u : IVec, cval N.n u N.ndBasis 0 res' =
        (∑ i, F i * ((ev N.n u i : Int) : R)) • (1 : MvPolynomial (Fin (N.n + 1)) R) + P := by
  have hd := hN.dr.hd
  have hn := hN.pos
  obtain ⟨hlen, hb0⟩ := hN.head
  obtain ⟨listS, listT, BU, eBU, hl⟩ := level_ok hsolve hN (k := 0) (by omega)
  have htS := hl.tabS
  rw [Nat.cast_zero, zero_mul] at htS
  have hS1 := table_zero htS
  have hz0 : ev N.n (List.replicate (N.n + 1) 0) = 0 := by
    funext i
    rw [ev, getD_replicate_zero]; rfl
  have hx1 : xpow R (0 : Fin (N.n + 1) → ℤ) = 1 := by
    rw [xpow_of_nonneg (a := 0) (fun _ => le_refl _)]
    exact (congrArg (fun s => monomial s (1 : R)) (Finsupp.ext (fun i => by simp))).trans rfl
  have hb : IsTuple (N.n + 1) (((0 : Nat) : Int) * N.d) (List.replicate (N.n + 1) 0) := by
    rw [Nat.cast_zero, zero_mul]
    exact (htS.2 _).1 (by rw [hS1]; simp)
  obtain ⟨ew, hw, evw⟩ := tuple_add hb hv
  rw [show ((0 : Nat) : Int) * N.d + N.d = (((0 : Nat) : Int) + 1) * N.d by ring] at hw
  obtain ⟨c, hc, gc, lc⟩ := hl.tabT.exists_index hw
  rw [hz0, zero_add] at evw
  -- the first vector
  have hle : (((0 : Nat) : Int) + 1) * N.d ≤ (N.n + 1) * N.d := by
    apply mul_le_mul_of_nonneg_right <;> omega
  obtain ⟨listH, hH, eH, eHd⟩ := N.list_ok hN.dr ((((0 : Nat) : Int) + 1) * N.d) (by positivity) hle
  obtain rfl : listH = listT := hH.eq hl.tabT
  have hstart : ndStart N solves v (N.ndBasis.getD 0 []) 0 = .ok
      ([(List.replicate (N.n + 1) 0, CVec.unit listH.length c)], 1) := by
    rw [hb0, ndStart, if_neg (by omega)]
    rw [Nat.cast_zero] at eH eHd
    rw [eH, Res.bind_ok, eHd, Res.bind_ok, ew, Res.bind_ok, lc, Res.bind_ok]
    rfl
  obtain ⟨F, eF, lF, vF⟩ := mulVec_ok BU.2 (CVec.unit listH.length c) (by rw [hl.cols]; rfl)
  have hscat := fun u => ndScatter_ok (b := 0) u (L := listS) (H := []) (MapOK.nil _ _) (keyOK_zero N.n) (cnt := listS.length)
    (tgt := fun s => .ok (s, listS.getD s [])) (t := fun s => listS.getD s []) (c := fun s => s)
    (fun s hs => ⟨rfl, hs, rfl⟩) (F := F) (by rw [lF, hl.rows]; omega)
  have hcok := fun u => ndCokernel_ok hN u hl.lt (hl.mem (by omega)) (off := (N.n + 1) * listS.length)
    (F := F) (by rw [lF, hl.rows]) (keyOK_zero N.n) (Nat.zero_le _) hlen (res := []) (MapOK.nil _ _)
  obtain ⟨H', eH', H1, -⟩ := hscat []
  obtain ⟨r', er, r1, -⟩ := hcok []
  have hpos : 0 < listS.length := by rw [hS1]; simp
  obtain ⟨r2, er2, s1, -⟩ := ndConst_ok hN [] (k := 0) hpos (by omega) H1 hlen r1
  have hdec := decomp_vec hl.rows hl.dec (by rw [← hl.cols]; exact vF)
  rw [combo_unit hc, gc, evw] at hdec
  refine ⟨r2, fun i => F.e i.val, ∑ b ∈ Finset.range BU.1.length, F.e ((N.n + 1) * listS.length + b) •
              xpow R (ev N.n (listH.getD (BU.1.getD b 0) [])), ?_, s1, ?_, fun u => ?_⟩
  · rw [ndColumn, aget_of_lt _ _ hlen, ← getD_getElem _ [] _ hlen, Res.bind_ok, if_neg (by omega), hb0,
      show sumVec (List.replicate (N.n + 1) (0 : Int)) = 0 by rw [sumVec_eq_sum]; simp, Int.zero_emod, decide_eq_true rfl,
      check_true, Res.bind_ok, Int.zero_ediv, ← hb0, hstart, Res.bind_ok]
    show ndLoop N solves 0 1 _ _ = _
    have hent : ndEntry N BU listS listH 0 0 ([], []) (List.replicate (N.n + 1) 0, CVec.unit listH.length c) = .ok (H', r') := by
      rw [ndEntry, eF, Res.bind_ok, eH', Res.bind_ok, if_pos (by omega), er]; rfl
    rw [ndLoop, hs1 0 (by omega) BU eBU, Res.bind_ok, hl.eS, Res.bind_ok, hl.eT, Res.bind_ok, List.foldlM_cons, hent,
      Res.bind_ok, List.foldlM_nil, Res.pure_eq, Res.bind_ok, er2]
    rfl
  · rw [hdec]
    congr 1
    refine Finset.sum_congr rfl (fun i _ => ?_)
    rw [hS1]
    simp [combo, hz0, hx1]
  · obtain ⟨Ha, ea, -, va⟩ := hscat u
    rw [eH'] at ea
    obtain rfl := Except.ok.inj ea
    obtain ⟨ra, eb, -, vb⟩ := hcok u
    rw [er] at eb
    obtain rfl := Except.ok.inj eb
    obtain ⟨rb, ec, -, vc⟩ := ndConst_ok hN u (k := 0) hpos (by omega) H1 hlen r1
    rw [er2] at ec
    obtain rfl := Except.ok.inj ec
    rw [vc, if_pos ⟨rfl, rfl⟩, ← (hval_zero u htS H').2, va, vb, if_pos rfl, ndMon_zero]
    rw [scatterVal, hS1]
    simp [hval, cval, msum, hz0, hx1, add_comm, Finset.sum_smul]

theorem redMatND_zero [DecidableEq R] {solve : Solver R} (hsolve : SolverOK solve) {N : ND R} (hN : NDOk solve N)
    {v : IVec} (hv : IsTuple (N.n + 1) N.d v) :
    ∃ (res : MonMap (CMat R)) (F : Fin (N.n + 1) → R) (P : MvPolynomial (Fin (N.n + 1)) R),
      redMatND solve N v = .ok res ∧ RES N.n N.ndBasis.length res ∧
      xpow R (ev N.n v) = ∑ i, F i • xd i (DRpoly N.toDR) + P ∧
      ∀ u : IVec, cval N.n u N.ndBasis 0 res =
        (∑ i, F i * ((ev N.n u i : Int) : R)) • (1 : MvPolynomial (Fin (N.n + 1)) R) + P := by
  have hlow : ∃ low : List (List Nat × CMat R),
      (List.range N.n).mapM (fun i : Nat => solveND solve N.toDR (((i : Int) + 1) * N.d)) = .ok low ∧
      low.length = N.n ∧ ∀ k, k < N.n → ∀ BU,
        solveND solve N.toDR (((k : Int) + 1) * N.d) = .ok BU → low[k]? = some BU := by
    refine ⟨(List.range N.n).map (fun k : Nat => match solveND solve N.toDR (((k : Int) + 1) * N.d) with
      | .ok BU => BU
      | .error _ => ([], CMat.mk' 0 0 (fun _ _ => 0))), mapM_eq_ok _ _ _ ?_, by simp, ?_⟩
    · intro k hk
      obtain ⟨_, _, BU, e, -⟩ := level_ok hsolve hN (k := k) (by have := List.mem_range.1 hk; omega)
      rw [e]
    · intro k hk BU e
      rw [List.getElem?_map, List.getElem?_range hk, Option.map_some, e]
  obtain ⟨low, elow, llow, hlow⟩ := hlow
  obtain ⟨U, eU⟩ := hN.top
  have hs1 : ∀ k, k < N.n → ∀ BU,
      solveND solve N.toDR (((k : Int) + 1) * N.d) = .ok BU → aget (low ++ [([], U)]) k = .ok BU := by
    intro k hk BU e
    rw [aget, List.getElem?_append_left (by omega), hlow k hk BU e]
  have hs2 : ∀ BU, solveND solve N.toDR N.topND = .ok BU → aget (low ++ [([], U)]) N.n = .ok BU := by
    intro BU e
    rw [eU] at e
    cases e
    rw [aget, List.getElem?_append_right (by omega), llow]
    simp
  obtain ⟨r0, F, P, e0, g1, g2, g3⟩ := ndColumn_zero hsolve hN hs1 hv
  obtain ⟨res, e, h1, h2⟩ := forRange_inv (n := N.ndBasis.length) (s := ([] : MonMap (CMat R)))
    (f := fun col res => ndColumn N (low ++ [([], U)]) v col res)
    (fun col (res : MonMap (CMat R)) => RES N.n N.ndBasis.length res ∧ (col = 0 → res = []) ∧
      (0 < col → ∀ u : IVec, cval N.n u N.ndBasis 0 res = cval N.n u N.ndBasis 0 r0))
    ⟨MapOK.nil _ _, fun _ => rfl, fun h => absurd h (lt_irrefl _)⟩ (by
      rintro col res hcol ⟨h1, h2, h3⟩
      by_cases hc : col = 0
      · subst hc
        rw [h2 rfl]
        exact ⟨r0, e0, g1, by omega, fun _ _ => rfl⟩
      · obtain ⟨res', e, k1, k2⟩ := ndColumn_ok hsolve hN hs1 hs2 hv hcol h1
        refine ⟨res', e, k1, by omega, fun _ u => ?_⟩
        rw [← h3 (by omega) u]
        exact (k2 u R 0 (fun w i k _ _ => by simp)).1 0 (Ne.symm hc))
  have hsum : sumVec v = N.d := by rw [sumVec_eq_sum]; exact hv.2.2
  obtain ⟨f1, f2⟩ := RES.filter h1
  refine ⟨res.filter (fun e => !e.2.isZero), F, P, ?_, f1, g2, fun u => ?_⟩
  · rw [redMatND, hsum, decide_eq_true rfl, check_true, Res.bind_ok, elow, Res.bind_ok, eU, Res.bind_ok, e]
    rfl
  · rw [f2 u 0 hN.head.1, h2.2 hN.head.1 u, g3]

/-- The map of matrices for `u + x v` is never empty. -/
theorem redMatNDPoly_ne [DecidableEq R] [Nontrivial R] {solve : Solver R} (hsolve : SolverOK solve) {N : ND R}
    (hN : NDOk solve N) (hn : N.n ≤ 61) {v : IVec} (hv : IsTuple (N.n + 1) N.d v) :
    redMatNDPoly solve N v ≠ .ok [] := by
  intro h
  obtain ⟨res, F, P, e, hres, hx, hval⟩ := redMatND_zero hsolve hN hv
  obtain ⟨E, e1, -, e3⟩ := redMatNDPoly_ok hn hN.head.1 hv.1 e hres
  rw [h] at e1
  obtain rfl := Except.ok.inj e1
  have hzero : ∀ u : IVec, u.length = N.n + 1 → cval N.n u N.ndBasis 0 res = 0 := by
    intro u hu
    rw [cval_eq, combo]
    refine Finset.sum_eq_zero (fun r hr => ?_)
    have := e3 u hu 0 r 0 (Finset.mem_range.1 hr) hN.head.1
    have hz : List.zipWith (fun a b => a + 0 * b) u v = u := by
      refine List.ext_getElem (by rw [List.length_zipWith, hu, hv.1, min_self]) (fun i h1 h2 => by simp)
    rw [hz] at this
    rw [← this]
    simp [pval]
  have hP : P = 0 := by
    have h0 := hval (List.replicate (N.n + 1) 0)
    rw [hzero _ (by simp)] at h0
    have : (∑ i, F i * ((ev N.n (List.replicate (N.n + 1) 0) i : Int) : R)) = 0 :=
      Finset.sum_eq_zero (fun i _ => by rw [ev, getD_replicate_zero]; simp)
    rw [this, zero_smul, zero_add] at h0
    exact h0.symm
  have hF : ∀ j, F j = 0 := by
    intro j
    have h0 := hval ((List.replicate (N.n + 1) 0).set j.val 1)
    rw [hzero _ (by simp), hP, add_zero] at h0
    have : (∑ i, F i * ((ev N.n ((List.replicate (N.n + 1) 0).set j.val 1) i : Int) : R)) = F j := by
      rw [Finset.sum_eq_single j]
      · rw [ev, getD_set _ _ _ _ (by rw [List.length_replicate]; exact j.isLt), if_pos rfl]; simp
      · intro i _ hij
        rw [ev, getD_set _ _ _ _ (by rw [List.length_replicate]; exact j.isLt), if_neg (fun h => hij (Fin.ext h)), getD_replicate_zero]; simp
      · intro h; exact absurd (Finset.mem_univ j) h
    rw [this] at h0
    have h1 := congrArg (MvPolynomial.coeff 0) h0
    simpa using h1.symm
  rw [hP, Finset.sum_eq_zero (fun i _ => by rw [hF i, zero_smul]), add_zero] at hx
  rw [xpow_of_nonneg (ev_nonneg hv), MvPolynomial.monomial_eq_zero] at hx
  exact one_ne_zero hx

end Verif
