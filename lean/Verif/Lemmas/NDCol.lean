import Verif.Lemmas.NDLoop

/-!
`compute_reduction_matrix_ND`: every column, and the whole result.
-/

namespace Verif

open Spec MvPolynomial

variable {R : Type} [CommRing R]

theorem tuple_add {n : Nat} {a b : Int} {s t : IVec} (hs : IsTuple (n + 1) a s) (ht : IsTuple (n + 1) b t) :
    addVec s t = .ok (List.zipWith (· + ·) s t) ∧ IsTuple (n + 1) (a + b) (List.zipWith (· + ·) s t) ∧
      ev n (List.zipWith (· + ·) s t) = ev n s + ev n t := by
  have hl : s.length = t.length := by rw [hs.1, ht.1]
  refine ⟨addVec_ok hl, ⟨by rw [List.length_zipWith, hs.1, ht.1, min_self], nonNeg_add hs.2.1 ht.2.1, ?_⟩, ev_add hl⟩
  have hl2 : (List.zipWith (· + ·) s t).length = n + 1 := by rw [List.length_zipWith, hs.1, ht.1, min_self]
  show (List.zipWith (· + ·) s t).sum = _
  rw [← sum_ev hl2, ev_add hl, Finset.sum_congr rfl (fun j _ => Pi.add_apply _ _ j),
    Finset.sum_add_distrib, sum_ev_tuple hs, sum_ev_tuple ht]

theorem tuple_tweak {n : Nat} {a : Int} {v : IVec} (hv : IsTuple (n + 1) a v) {r : Int} (h0 : 0 ≤ r) (h1 : r ≤ a) :
    ∃ t s, tweak v r = .ok t ∧ subVec v t = .ok s ∧ IsTuple (n + 1) (a - r) t ∧ IsTuple (n + 1) r s ∧
      ev n v = ev n t + ev n s := by
  obtain ⟨p1, p2, p3⟩ := tweakNat_props v r.toNat hv.2.1
  have hl : (tweakNat v r.toNat).length = n + 1 := by rw [tweakNat_length, hv.1]
  have hlen : v.length = (tweakNat v r.toNat).length := by rw [tweakNat_length]
  have hs : v.sum = a := hv.2.2
  have hl2 : (List.zipWith (· - ·) v (tweakNat v r.toNat)).length = n + 1 := by
    rw [List.length_zipWith, hl, hv.1, min_self]
  have hsum : (tweakNat v r.toNat).sum = a - r := by
    rw [p3, hs, Int.toNat_of_nonneg h0, min_eq_left h1]
  refine ⟨tweakNat v r.toNat, List.zipWith (· - ·) v (tweakNat v r.toNat), by rw [tweak, if_neg (by omega)],
    subVec_ok hlen, ⟨hl, p1, hsum⟩, tuple_of_ev hl2 (fun i => ?_) ?_, ?_⟩
  · rw [ev_sub hlen, Pi.sub_apply]
    have h1 : i.val < (tweakNat v r.toNat).length := by rw [hl]; exact i.isLt
    have h2 : i.val < v.length := by rw [hv.1]; exact i.isLt
    rw [ev, ev, getD_getElem _ _ _ h1, getD_getElem _ _ _ h2]
    have := p2.2 _ h1 h2
    omega
  · rw [ev_sub hlen, Finset.sum_congr rfl (fun i _ => Pi.sub_apply _ _ i), Finset.sum_sub_distrib,
      sum_ev hv.1, sum_ev hl, hsum, hs]; ring
  · rw [ev_sub hlen]; funext i; simp

/-- What `get_solve_ND((d-1)(n+1)+1)` returns. -/
theorem topND_ok {solve : Solver R} (hsolve : SolverOK solve) {N : ND R} (hN : NDOk solve N) :
    ∃ listF listW U, IsTable N.n ((N.d : Int) * N.n - N.n) listF ∧ IsTable N.n N.topND listW ∧
      N.list ((N.d : Int) * N.n - N.n) = .ok listF ∧ N.dict N.topND = .ok (buildDict listW) ∧
      solveND solve N.toDR N.topND = .ok ([], U) ∧ U.rows = (N.n + 1) * listF.length ∧ U.cols = listW.length ∧
      ∀ c, c < listW.length → xpow R (ev N.n (listW.getD c [])) =
        ∑ i : Fin (N.n + 1), combo N.n listF (fun s => U.e (i.val * listF.length + s) c)
              * xd i (DRpoly N.toDR) := by
  obtain ⟨U', hU'⟩ := hN.top
  have hd := hN.dr.hd
  have hn := hN.pos
  have ht : N.topND - N.d = (N.d : Int) * N.n - N.n := by rw [DR.topND]; ring
  have hge : (N.d : Int) ≤ N.topND := by rw [DR.topND]; nlinarith
  have hle : N.topND ≤ (N.n + 1) * N.d := by rw [DR.topND]; nlinarith
  obtain ⟨L, S, B, U, hL, hS, eL, eS, eU, hr, hc, -, -, hdec⟩ := solveND_ok hsolve hN.dr N.topND hge hle
  rw [ht] at hS eS
  rw [hU'] at eU
  cases eU
  obtain ⟨L', hL', eL1, eL2⟩ := N.list_ok hN.dr N.topND (by omega) hle
  rw [eL] at eL1
  cases eL1
  refine ⟨S, L, U', hS, hL, eS, eL2, hU', by simpa using hr, hc, fun c hc => ?_⟩
  have := hdec c hc
  simpa using this

section

theorem ndStart_ok {solve : Solver R} (hsolve : SolverOK solve) {N : ND R} (hN : NDOk solve N)
    {solves : List (List Nat × CMat R)} (hs : ∀ BU, solveND solve N.toDR N.topND = .ok BU → aget solves N.n = .ok BU)
    {v b : IVec} (hv : IsTuple (N.n + 1) N.d v) {l : Nat} (hl : l ≤ N.n) (hb : IsTuple (N.n + 1) ((l : Int) * N.d) b) :
    ∃ H steps listT bd, ndStart N solves v b l = .ok (H, steps) ∧ steps ≠ 0 ∧ steps ≤ N.n ∧
      bd + steps ≤ N.n + 1 ∧ IsTable N.n ((steps : Int) * N.d) listT ∧ HOK N.n listT.length bd H ∧
      ∀ (u : IVec) (W : Type) [AddCommGroup W] [Module R W] (Ψ : MvPolynomial (Fin (N.n + 1)) R →ₗ[R] W),
        TorRel N.d (DRpoly N.toDR) (ev N.n u) Ψ →
        Ψ (hval N.n u listT H) = Ψ (xpow R (ev N.n b + ev N.n v)) := by
  have hd := hN.dr.hd
  have hn := hN.pos
  have hnd : (0 : Int) ≤ (N.n : Int) * N.d := by positivity
  by_cases hln : l = N.n
  · subst hln
    obtain ⟨r, s, er, es, hr, hs', hrs⟩ := tuple_tweak hv (r := (N.d : Int) - N.n) (by omega) (by omega)
    obtain ⟨ew, hw, evw⟩ := tuple_add hb hs'
    obtain ⟨listF, listW, U, hF, hW, eF, eW, eU, Ur, Uc, Udec⟩ := topND_ok hsolve hN
    obtain ⟨listH, hH, eH, eHd⟩ := N.list_ok hN.dr ((N.n : Int) * N.d) hnd (by linarith)
    have hw' : IsTuple (N.n + 1) N.topND (List.zipWith (· + ·) b s) := by
      have : (N.n : Int) * N.d + (N.d - N.n) = N.topND := by rw [DR.topND]; ring
      rw [← this]; exact hw
    obtain ⟨c, hc, gc, lc⟩ := hW.exists_index hw'
    have htr : ∀ s, s < listF.length → IsTuple (N.n + 1) ((N.n : Int) * N.d) (List.zipWith (· + ·) r (listF.getD s []))
        ∧ addVec r (listF.getD s []) = .ok (List.zipWith (· + ·) r (listF.getD s [])) := by
      intro s hs
      obtain ⟨a1, a2, -⟩ := tuple_add hr (hF.tuple hs)
      refine ⟨?_, a1⟩
      have : (N.d : Int) - (N.d - N.n) + (N.d * N.n - N.n) = N.n * N.d := by ring
      rw [← this]; exact a2
    obtain ⟨H', eH', h1, -⟩ := ndScatter_ok (R := R) (n := N.n) [] (L := listH) (H := []) (MapOK.nil _ _) (keyOK_zero N.n)
      (cnt := listF.length) (tgt := fun s => do
        let t ← addVec r (listF.getD s [])
        let c ← look (buildDict listH) t
        pure (c, t)) (t := fun s => List.zipWith (· + ·) r (listF.getD s []))
      (c := fun s => listH.idxOf (List.zipWith (· + ·) r (listF.getD s [])))
      (fun s hs => by
        obtain ⟨a1, a2⟩ := htr s hs
        obtain ⟨i1, i2, i3⟩ := hH.idx a1
        refine ⟨?_, i1, i2⟩
        rw [a2, Res.bind_ok, i3]; rfl) (F := CVec.mk' U.rows (fun i => U.e i c)) (by
        show _ ≤ U.rows
        rw [Ur])
    refine ⟨H', N.n, listH, 1, ?_, by omega, le_refl _, by omega, hH, h1, ?_⟩
    · rw [ndStart, if_pos rfl, er, Res.bind_ok, es, Res.bind_ok, ew, Res.bind_ok, eW, Res.bind_ok, lc, Res.bind_ok,
        eF, Res.bind_ok, eH, Res.bind_ok, eHd, Res.bind_ok, hs _ eU, Res.bind_ok, CMat.colVec, if_pos (by rw [Uc]; exact hc),
        Res.bind_ok, eH']
      rfl
    · intro u W _ _ Ψ hΨ
      obtain ⟨H'', eH'', -, hv2⟩ := ndScatter_ok (R := R) (n := N.n) u (L := listH) (H := []) (MapOK.nil _ _) (keyOK_zero N.n)
        (cnt := listF.length) (tgt := fun s => do
          let t ← addVec r (listF.getD s [])
          let c ← look (buildDict listH) t
          pure (c, t)) (t := fun s => List.zipWith (· + ·) r (listF.getD s []))
        (c := fun s => listH.idxOf (List.zipWith (· + ·) r (listF.getD s [])))
        (fun s hs => by
          obtain ⟨a1, a2⟩ := htr s hs
          obtain ⟨i1, i2, i3⟩ := hH.idx a1
          refine ⟨?_, i1, i2⟩
          rw [a2, Res.bind_ok, i3]; rfl) (F := CVec.mk' U.rows (fun i => U.e i c)) (by
          show _ ≤ U.rows
          rw [Ur])
      rw [eH'] at eH''
      cases eH''
      have hz : hval N.n u listH ([] : MonMap (CVec R)) = 0 := by simp [hval, msum]
      rw [hv2, hz, zero_add, ndMon_zero, Int.cast_one, one_smul,
        ← scatter_rel hΨ (k := N.n) (fun s hs => (htr s hs).1)]
      have he : ev N.n b + ev N.n v = ev N.n r + ev N.n (List.zipWith (· + ·) b s) := by
        rw [evw, hrs]; abel
      rw [he, ← xpow_mul (ev_nonneg hr) (ev_nonneg hw'), ← gc, Udec c hc, combo_mul_eq listF
        (fun s => U.e s c), Finset.mul_sum]
      congr 1
      refine Finset.sum_congr rfl (fun i _ => ?_)
      rw [Finset.mul_sum]
      refine Finset.sum_congr rfl (fun s hs => ?_)
      have hs' := Finset.mem_range.1 hs
      have hlt := rowMajor_lt i.isLt hs'
      have hrow : (CVec.mk' U.rows (fun i => U.e i c)).e (i.val * listF.length + s) = U.e (i.val * listF.length + s) c := by
        simp only [CVec.mk']
        rw [if_pos (by rw [Ur]; exact hlt)]
      rw [hrow, (tuple_add hr (hF.tuple hs')).2.2, ← xpow_mul (ev_nonneg hr) (ev_nonneg (hF.tuple hs')),
        mul_smul_comm, mul_assoc]
  · have hle : ((l : Int) + 1) * N.d ≤ N.n * N.d := by
      apply mul_le_mul_of_nonneg_right <;> omega
    have hge : (0 : Int) ≤ ((l : Int) + 1) * N.d := by positivity
    obtain ⟨listH, hH, eH, eHd⟩ := N.list_ok hN.dr (((l : Int) + 1) * N.d) hge (by linarith)
    obtain ⟨ew, hw, evw⟩ := tuple_add hb hv
    rw [show (l : Int) * N.d + N.d = (l + 1) * N.d by ring] at hw
    obtain ⟨c, hc, gc, lc⟩ := hH.exists_index hw
    refine ⟨[(List.replicate (N.n + 1) 0, CVec.unit listH.length c)], l + 1, listH, 0, ?_, by omega, by omega, by omega,
      by push_cast; exact hH, ?_, ?_⟩
    · rw [ndStart, if_neg (by omega), eH, Res.bind_ok, eHd, Res.bind_ok, ew, Res.bind_ok, lc, Res.bind_ok]
      have : ((l : Int) + 1).toNat = l + 1 := by omega
      rw [this]; rfl
    · refine ⟨?_, ?_, ?_⟩
      · intro x hx
        simp only [MonMap.keys, List.map_cons, List.map_nil, List.mem_singleton] at hx
        rw [hx]; simp
      · simp [MonMap.Sorted, MonMap.keys]
      · intro t ht
        rw [List.mem_singleton] at ht
        subst ht
        exact ⟨keyOK_zero _, rfl⟩
    · intro u W _ _ Ψ hΨ
      rw [hval, msum_cons]
      simp only [msum, List.map_nil, List.sum_nil, add_zero]
      rw [ndMon_zero, Int.cast_one, one_smul, combo_unit hc, gc, evw]

theorem ndColumn_ok {solve : Solver R} (hsolve : SolverOK solve) {N : ND R} (hN : NDOk solve N)
    {solves : List (List Nat × CMat R)} (hs1 : ∀ k, k < N.n → ∀ BU,
      solveND solve N.toDR (((k : Int) + 1) * N.d) = .ok BU → aget solves k = .ok BU)
    (hs2 : ∀ BU, solveND solve N.toDR N.topND = .ok BU → aget solves N.n = .ok BU)
    {v : IVec} (hv : IsTuple (N.n + 1) N.d v) {col : Nat} (hc : col < N.ndBasis.length)
    {res : MonMap (CMat R)} (hres : RES N.n N.ndBasis.length res) :
    ∃ res', ndColumn N solves v col res = .ok res' ∧ RES N.n N.ndBasis.length res' ∧
      ∀ (u : IVec) (W : Type) [AddCommGroup W] [Module R W] (Ψ : MvPolynomial (Fin (N.n + 1)) R →ₗ[R] W),
        TorRel N.d (DRpoly N.toDR) (ev N.n u) Ψ →
        (∀ c', c' ≠ col → cval N.n u N.ndBasis c' res' = cval N.n u N.ndBasis c' res) ∧
        Ψ (cval N.n u N.ndBasis col res') = Ψ (cval N.n u N.ndBasis col res) +
          Ψ (xpow R (ev N.n (N.ndBasis.getD col []) + ev N.n v)) := by
  have hd := hN.dr.hd
  have hm : N.ndBasis.getD col [] ∈ N.ndBasis := by rw [getD_getElem _ _ _ hc]; exact List.getElem_mem hc
  obtain ⟨l, hl, hb⟩ := hN.deg _ hm
  obtain ⟨H, steps, listT, bd, eS, s1, s2, s3, s4, s5, s6⟩ := ndStart_ok hsolve hN hs2 hv hl hb
  have hsum : sumVec (N.ndBasis.getD col []) = l * N.d := by rw [sumVec_eq_sum]; exact hb.2.2
  have hpre : ndColumn N solves v col res = ndLoop N solves col steps H res := by
    rw [ndColumn, aget_of_lt _ _ hc, ← getD_getElem _ [] _ hc, Res.bind_ok, if_neg (by omega), hsum,
      Int.mul_emod_left, decide_eq_true rfl, check_true, Res.bind_ok, Int.mul_ediv_cancel _ (by omega), eS, Res.bind_ok]
  have hzero : TorRel N.d (DRpoly N.toDR) (ev N.n []) (0 : MvPolynomial (Fin (N.n + 1)) R →ₗ[R] R) :=
    fun w i k _ _ => by simp
  obtain ⟨res', e1, e2, -, -⟩ := ndLoop_ok hsolve hN hzero hs1 hc steps bd s3 s2 s4 s5 hres
  refine ⟨res', by rw [hpre, e1], e2, ?_⟩
  intro u W _ _ Ψ hΨ
  obtain ⟨res'', f1, -, f3, f4⟩ := ndLoop_ok hsolve hN hΨ hs1 hc steps bd s3 s2 s4 s5 hres
  rw [e1] at f1
  cases f1
  exact ⟨f3, by rw [f4, if_neg s1, s6 u W Ψ hΨ]⟩

/-- The matrices returned by `compute_reduction_matrix_ND(v)`. -/
theorem redMatND_ok [DecidableEq R] {solve : Solver R} (hsolve : SolverOK solve) {N : ND R} (hN : NDOk solve N)
    {v : IVec} (hv : IsTuple (N.n + 1) N.d v) :
    ∃ res, redMatND solve N v = .ok res ∧ RES N.n N.ndBasis.length res ∧
      ∀ (u : IVec) (W : Type) [AddCommGroup W] [Module R W] (Ψ : MvPolynomial (Fin (N.n + 1)) R →ₗ[R] W),
        TorRel N.d (DRpoly N.toDR) (ev N.n u) Ψ → ∀ c, c < N.ndBasis.length →
          Ψ (xpow R (ev N.n (N.ndBasis.getD c []) + ev N.n v)) = Ψ (cval N.n u N.ndBasis c res) := by
  have hlow : ∃ low : List (List Nat × CMat R),
      (List.range N.n).mapM (fun i : Nat => solveND solve N.toDR (((i : Int) + 1) * N.d)) = .ok low ∧
      low.length = N.n ∧ ∀ k, k < N.n → ∀ BU,
        solveND solve N.toDR (((k : Int) + 1) * N.d) = .ok BU → low[k]? = some BU := by
    refine ⟨(List.range N.n).map (fun k : Nat => match solveND solve N.toDR (((k : Int) + 1) * N.d) with
      | .ok BU => BU
      | .error _ => ([], CMat.mk' 0 0 (fun _ _ => 0))), mapM_eq_ok _ _ _ ?_, by simp, ?_⟩
    · intro k hk
      obtain ⟨_, _, BU, e, -⟩ := level_ok hsolve hN (k := k) (by have := List.mem_range.1 hk; omega)
      rw [e]
    · intro k hk BU e
      rw [List.getElem?_map, List.getElem?_range hk, Option.map_some, e]
  obtain ⟨low, elow, llow, hlow⟩ := hlow
  obtain ⟨U, eU⟩ := hN.top
  have hs1 : ∀ k, k < N.n → ∀ BU,
      solveND solve N.toDR (((k : Int) + 1) * N.d) = .ok BU → aget (low ++ [([], U)]) k = .ok BU := by
    intro k hk BU e
    rw [aget, List.getElem?_append_left (by omega), hlow k hk BU e]
  have hs2 : ∀ BU, solveND solve N.toDR N.topND = .ok BU → aget (low ++ [([], U)]) N.n = .ok BU := by
    intro BU e
    rw [eU] at e
    cases e
    rw [aget, List.getElem?_append_right (by omega), llow]
    simp
  obtain ⟨res, e, h1, h2⟩ := forRange_inv (n := N.ndBasis.length) (s := ([] : MonMap (CMat R)))
    (f := fun col res => ndColumn N (low ++ [([], U)]) v col res)
    (fun col res => RES N.n N.ndBasis.length res ∧
      ∀ (u : IVec) (W : Type) [AddCommGroup W] [Module R W] (Ψ : MvPolynomial (Fin (N.n + 1)) R →ₗ[R] W),
        TorRel N.d (DRpoly N.toDR) (ev N.n u) Ψ →
        (∀ c, c < col → Ψ (cval N.n u N.ndBasis c res) = Ψ (xpow R (ev N.n (N.ndBasis.getD c []) + ev N.n v))) ∧
        (∀ c, col ≤ c → Ψ (cval N.n u N.ndBasis c res) = 0))
    ⟨MapOK.nil _ _, fun u W _ _ Ψ _ => ⟨fun c hc => by omega, fun c _ => by simp [cval, msum]⟩⟩ (by
      rintro col res hcol ⟨h1, h2⟩
      obtain ⟨res', e, g1, g2⟩ := ndColumn_ok hsolve hN hs1 hs2 hv hcol h1
      refine ⟨res', e, g1, ?_⟩
      intro u W _ _ Ψ hΨ
      obtain ⟨a1, a2⟩ := g2 u W Ψ hΨ
      obtain ⟨b1, b2⟩ := h2 u W Ψ hΨ
      refine ⟨fun c hc => ?_, fun c hc => by rw [a1 c (by omega), b2 c (by omega)]⟩
      by_cases hcc : c = col
      · subst hcc
        rw [a2, b2 c (le_refl _), zero_add]
      · rw [a1 c hcc, b1 c (by omega)])
  have hsum : sumVec v = N.d := by rw [sumVec_eq_sum]; exact hv.2.2
  obtain ⟨f1, f2⟩ := RES.filter h1
  refine ⟨res.filter (fun e => !e.2.isZero), ?_, f1, ?_⟩
  · rw [redMatND, hsum, decide_eq_true rfl, check_true, Res.bind_ok, elow, Res.bind_ok, eU, Res.bind_ok, e]
    rfl
  · intro u W _ _ Ψ hΨ c hc
    rw [f2 u c hc, (h2 u W Ψ hΨ).1 c hc]

end

end Verif
