import Verif.Lemmas.NDBasis

/-!
The last block of `coKernels_ND_to_basis` and the whole matrix.
-/

namespace Verif

open Spec MvPolynomial

variable {R : Type} [CommRing R] {solve : Solver R} {N : ND R}

/-- One column of the last block. -/
theorem ndTopCol_ok [Nontrivial R] (hsolve : SolverOK solve) (hD : DROk N.toDR) (hB : BasisOK solve N.toDR)
    (hn : 1 ≤ N.n) {u : IVec} (hu : IsTuple (N.n + 1) N.d u) (hpos : ∀ x ∈ u, 0 < x)
    {mon : IVec} (hmon : IsTuple (N.n + 1) ((N.d : Int) * N.n) mon) {listF listH listW : List IVec} {U : CMat R}
    (hF : IsTable N.n ((N.d : Int) * N.n - 2 * N.n) listF)
    (hW : IsTable N.n ((N.d : Int) * N.n - N.n + N.d - (N.n + 1)) listW)
    (hH : IsTable N.n ((N.d : Int) * N.n - (N.n + 1)) listH) (hUr : U.rows = (N.n + 1) * listF.length)
    (hUc : U.cols = listW.length)
    (hU : ∀ k, k < listW.length → xpow R (ev N.n (listW.getD k []))
        = ∑ i : Fin (N.n + 1), combo N.n listF (fun s => U.e (i.val * listF.length + s) k)
              * pderiv i (DRpoly N.toDR)) :
    ∃ col, ndTopCol solve N U listF listH (buildDict listH) (buildDict listW) u mon = .ok col ∧
      col.len = N.basis.length ∧ ColJ N.toDR (fun i => ev N.n u i + ev N.n mon i - 1) col.e := by
  have hd := hD.hd
  have hd1 : (1 : Int) ≤ N.d := by omega
  obtain ⟨tt, a, e1, e2, htt, ha, hev⟩ := tuple_tweak hmon (r := N.n) (by omega) (by nlinarith)
  obtain ⟨hp, hpe⟩ := pred_tuple hu hpos
  obtain ⟨w1, w2, w3⟩ := tuple_add htt hp
  rw [show (N.d : Int) * N.n - N.n + (N.d - (N.n + 1)) = (N.d : Int) * N.n - N.n + N.d - (N.n + 1) by ring] at w2
  obtain ⟨i1, i2, i3⟩ := hW.idx w2
  obtain ⟨c, hc⟩ : ∃ c, c = listW.idxOf (List.zipWith (· + ·) tt (u.map (· - 1))) := ⟨_, rfl⟩
  rw [← hc] at i1 i2 i3
  obtain ⟨L, M, cc, eM, hM⟩ := finalMatJ_ok hsolve hD hB N.n hn le_rfl
  have hLH : L = listH := by
    refine hM.table.eq ?_
    rw [show (N.n : Int) * N.d - (N.n + 1) = (N.d : Int) * N.n - (N.n + 1) by ring]
    exact hH
  subst hLH
  obtain ⟨H, eH, h1, h2⟩ := ndDeriv_ok (R := R) hF hH ha (by ring) (F := CVec.mk' U.rows (fun i => U.e i c))
    (by simp only [CVec.mk']; rw [hUr])
  obtain ⟨G, c', eG, g1, g2, g3⟩ := final_apply hM H h1
  refine ⟨G, ?_, g1, c', g2, ?_⟩
  · rw [ndTopCol, e1, Res.bind_ok, e2, Res.bind_ok, w1, Res.bind_ok, i3, Res.bind_ok, CMat.colVec,
      if_pos (by omega), Res.bind_ok, eH, Res.bind_ok, eM, Res.bind_ok, eG]
  · refine (Submodule.sub_mem_iff_left _ g3).1 ?_
    have hx : xpow R (fun i => ev N.n u i + ev N.n mon i - 1) = ∑ i : Fin (N.n + 1), ∑ s ∈ Finset.range listF.length,
        U.e (i.val * listF.length + s) c • (xpow R (ev N.n a + ev N.n (listF.getD s [])) * pderiv i (DRpoly N.toDR)) := by
      have e : (fun i => ev N.n u i + ev N.n mon i - 1) = ev N.n a + ev N.n (listW.getD c []) := by
        rw [i2, w3, hpe, hev]
        funext i
        simp only [Pi.add_apply]
        ring
      rw [e, ← xpow_mul (ev_nonneg ha) (ev_nonneg (hW.tuple i1)), hU c i1,
        combo_mul_eq listF (fun k => U.e k c), Finset.mul_sum]
      refine Finset.sum_congr rfl (fun i _ => ?_)
      rw [Finset.mul_sum]
      refine Finset.sum_congr rfl (fun s hs => ?_)
      rw [mul_smul_comm, ← mul_assoc, xpow_mul (ev_nonneg ha) (ev_nonneg (hF.tuple (Finset.mem_range.1 hs)))]
    rw [sub_sub_sub_cancel_right, hx, h2, ← Finset.sum_sub_distrib]
    refine Submodule.sum_mem _ (fun i _ => ?_)
    rw [← Finset.sum_sub_distrib]
    refine Submodule.sum_mem _ (fun s hs => ?_)
    have hs := Finset.mem_range.1 hs
    have hlt : i.val * listF.length + s < U.rows := by rw [hUr]; exact rowMajor_lt i.isLt hs
    rw [mk'_e_of_lt _ hlt, mul_smul, ← smul_sub]
    refine Submodule.smul_mem _ _ (Ex_mem _ _ N.n i _ hn (fun j => ?_) ?_)
    · exact add_nonneg (ev_nonneg ha j) (ev_nonneg (hF.tuple hs) j)
    · rw [Finset.sum_congr rfl (fun j _ => Pi.add_apply _ _ j), Finset.sum_add_distrib, sum_ev_tuple ha,
        sum_ev_tuple (hF.tuple hs)]
      ring

theorem putCol_ok (M : CMat R) (col : CVec R) (pos : Nat) (hr : col.len ≤ M.rows) (hc : pos < M.cols) :
    ∃ M', forRange col.len M (fun i M => M.put i pos (col.e i)) = .ok M' ∧ M'.rows = M.rows ∧ M'.cols = M.cols ∧
      (∀ r c, c < pos → M'.e r c = M.e r c) ∧ ∀ r, r < col.len → M'.e r pos = col.e r := by
  obtain ⟨M', e, h1, h2, h3, h4⟩ := forRange_inv (n := col.len) (s := M)
    (f := fun i M => M.put i pos (col.e i))
    (fun i (M' : CMat R) => M'.rows = M.rows ∧ M'.cols = M.cols ∧ (∀ r c, c < pos → M'.e r c = M.e r c) ∧
      ∀ r, r < i → M'.e r pos = col.e r)
    ⟨rfl, rfl, fun _ _ _ => rfl, fun r hr => by omega⟩ (by
      rintro i M1 hi ⟨a1, a2, a3, a4⟩
      refine ⟨_, put_ok (by omega) (by omega) _, a1, a2, ?_, ?_⟩
      · intro r c hcp
        simp only
        rw [if_neg (by omega), a3 r c hcp]
      · intro r hr'
        simp only
        by_cases h : r = i
        · rw [if_pos ⟨h, trivial⟩, h]
        · rw [if_neg (by omega), a4 r (by omega)])
  exact ⟨M', e, h1, h2, h3, h4⟩

/-- The matrix from the cokernel basis at `u` to the cohomology basis. -/
theorem cokernelsToBasis_ok [Nontrivial R] (hsolve : SolverOK solve) (hD : DROk N.toDR) (htop : TopOK solve N.toDR)
    (hB : BasisOK solve N.toDR) (hn : 1 ≤ N.n)
    (hbasis : N.ndBasis = (List.range (N.n + 1)).flatMap (ndBlock solve N.toDR))
    (hblk : ∀ i, i < N.n + 1 → NDBlockOK solve N.toDR i (ndBlock solve N.toDR i))
    {u : IVec} (hu : IsTuple (N.n + 1) N.d u) (hpos : ∀ x ∈ u, 0 < x) :
    ∃ M, cokernelsToBasis solve N u = .ok M ∧ M.rows = N.basis.length ∧ M.cols = N.ndBasis.length ∧
      ∀ c, c < N.ndBasis.length →
        ColJ N.toDR (fun i => ev N.n u i + ev N.n (N.ndBasis.getD c []) i - 1) (fun r => M.e r c) := by
  have hd := hD.hd
  have hall : u.all (fun x => decide (0 < x)) = true := by
    rw [List.all_eq_true]; intro x hx; simpa using hpos x hx
  have hsum : sumVec u = N.d := by rw [sumVec_eq_sum]; exact hu.2.2
  obtain ⟨pos, hposd⟩ : ∃ pos : Nat → Nat, pos = fun l => ((List.range l).flatMap (ndBlock solve N.toDR)).length :=
    ⟨_, rfl⟩
  have hpos0 : pos 0 = 0 := by rw [hposd]; rfl
  have hposS : ∀ l, pos (l + 1) = pos l + (ndBlock solve N.toDR l).length := by
    intro l; rw [hposd]; exact flatMap_len_succ _ l
  have hlen : N.ndBasis.length = pos (N.n + 1) := by rw [hbasis, hposd]
  have hmono : ∀ l, l < N.n + 1 → pos (l + 1) ≤ N.ndBasis.length := by
    intro l hl; rw [hlen, hposd]; exact flatMap_len_mono _ (by omega)
  have hget : ∀ l j, l < N.n + 1 → j < (ndBlock solve N.toDR l).length →
      N.ndBasis.getD (pos l + j) [] = (ndBlock solve N.toDR l).getD j [] := by
    intro l j hl hj
    rw [hbasis, hposd]
    exact (flatMap_getD (ndBlock solve N.toDR) [] hl hj).2
  obtain ⟨⟨M1, p1⟩, eM1, m1, m2, m3, m4⟩ := forRange_inv (n := N.n)
    (s := ((CMat.mk' N.basis.length N.ndBasis.length (fun _ _ => (0 : R)), 0) : CMat R × Nat))
    (f := fun l st => do
      let A ← finalMatJ solve N.toDR (l + 1)
      let B ← inclMatND solve N u l
      let tmp ← A.mul B
      let M ← putBlock st.1 tmp st.2
      pure (M, st.2 + tmp.cols))
    (fun l (st : CMat R × Nat) => st.1.rows = N.basis.length ∧ st.1.cols = N.ndBasis.length ∧ st.2 = pos l ∧
      ∀ c, c < pos l →
        ColJ N.toDR (fun i => ev N.n u i + ev N.n (N.ndBasis.getD c []) i - 1) (fun r => st.1.e r c))
    ⟨rfl, rfl, hpos0.symm, fun c hc => by rw [hpos0] at hc; omega⟩ (by
      rintro l ⟨M, p⟩ hl ⟨a1, a2, a3, a4⟩
      simp only at a1 a2 a3 a4
      obtain ⟨A, B, tmp, eA, eB, eT, t1, t2, t3⟩ := lowBlock_ok hsolve hD hB hu hpos hl (hblk l (by omega))
      obtain ⟨M', eM', b1, b2, b3, b4⟩ := putBlock_ok M tmp p (by omega) (by
        have := hmono l (by omega); rw [hposS] at this; omega)
      simp only
      rw [eA, Res.bind_ok, eB, Res.bind_ok, eT, Res.bind_ok, eM', Res.bind_ok, Res.pure_eq]
      refine ⟨_, rfl, by simp only; omega, by simp only; omega, by simp only; rw [hposS]; omega, fun c hc => ?_⟩
      simp only
      by_cases h : c < p
      · exact (a4 c (by omega)).congr rfl (fun r _ => b3 r c h)
      · have hj : c - p < tmp.cols := by rw [hposS] at hc; omega
        have h3 := t3 (c - p) hj
        have hg := hget l (c - p) (by omega) (by omega)
        rw [show pos l + (c - p) = c by omega] at hg
        refine h3.congr (by rw [hg]) (fun r hr => ?_)
        have := b4 r (c - p) (by rw [t1]; exact hr) hj
        rw [show p + (c - p) = c by omega] at this
        exact this)
  simp only at m1 m2 m3 m4
  obtain ⟨listG, listF, listW, U, hG, hF, hW, eG, eGd, eF, eWd, eU, hUr, hUc, hU⟩ := top_ok hsolve hD htop
  have h0 : (0 : Int) ≤ (N.n : Int) * N.d := by positivity
  obtain ⟨L, B, V, hL, eL, eV, hs, hlt⟩ := solveND_shape hsolve hD ((N.n : Int) * N.d) h0 (by nlinarith)
  have hcomm : (N.d : Int) * N.n = (N.n : Int) * N.d := by ring
  obtain ⟨listH, hH, eH, eHd⟩ := N.list_ok hD ((N.d : Int) * N.n - (N.n + 1)) (by nlinarith) (by nlinarith)
  have hb := (hblk N.n (by omega)).eq B V L eV eL
  have hblen : (ndBlock solve N.toDR N.n).length = B.length := by rw [hb, List.length_map]
  have hbget : ∀ j (hj : j < B.length), (ndBlock solve N.toDR N.n).getD j [] = L[B[j]]'(hlt _ (List.getElem_mem hj)) := by
    intro j hj
    have hj' : j < (B.map (fun j => L.getD j [])).length := by rw [List.length_map]; exact hj
    rw [hb, getD_getElem (B.map (fun j => L.getD j [])) [] j hj', List.getElem_map, getD_getElem]
  have hend : N.ndBasis.length = pos N.n + B.length := by rw [hlen, hposS, hblen]
  obtain ⟨⟨M2, p2⟩, eM2, q1, q2, q3, q4⟩ := forRange_inv (n := B.length) (s := (M1, p1))
    (f := fun j st => do
      let b ← aget B j
      let mon ← aget L b
      let col ← ndTopCol solve N U listF listH (buildDict listH) (buildDict listW) u mon
      let M ← forRange col.len st.1 (fun i M => M.put i st.2 (col.e i))
      pure (M, st.2 + 1))
    (fun j (st : CMat R × Nat) => st.1.rows = N.basis.length ∧ st.1.cols = N.ndBasis.length ∧ st.2 = pos N.n + j ∧
      ∀ c, c < pos N.n + j →
        ColJ N.toDR (fun i => ev N.n u i + ev N.n (N.ndBasis.getD c []) i - 1) (fun r => st.1.e r c))
    ⟨m1, m2, m3, m4⟩ (by
      rintro j ⟨M, p⟩ hj ⟨a1, a2, a3, a4⟩
      simp only at a1 a2 a3 a4
      have hbl := hlt _ (List.getElem_mem hj)
      have hmon : IsTuple (N.n + 1) ((N.d : Int) * N.n) L[B[j]] := by
        rw [hcomm, ← getD_getElem L [] _ hbl]; exact hL.tuple hbl
      obtain ⟨col, ec, c1, c2⟩ := ndTopCol_ok hsolve hD hB hn hu hpos hmon hF hW hH hUr hUc hU
      obtain ⟨M', eM', b1, b2, b3, b4⟩ := putCol_ok M col p (by omega) (by omega)
      simp only
      rw [aget_of_lt _ _ hj, Res.bind_ok, aget_of_lt _ _ hbl, Res.bind_ok, ec, Res.bind_ok, eM', Res.bind_ok,
        Res.pure_eq]
      refine ⟨_, rfl, by simp only; omega, by simp only; omega, by simp only; omega, fun c hc => ?_⟩
      simp only
      by_cases h : c < p
      · exact (a4 c (by omega)).congr rfl (fun r _ => b3 r c h)
      · have hcp : c = p := by omega
        have hg := hget N.n j (by omega) (by omega)
        rw [hbget j hj, ← a3, ← hcp] at hg
        refine c2.congr (by rw [hg]) (fun r hr => ?_)
        have := b4 r (by rw [c1]; exact hr)
        rw [← hcp] at this
        exact this)
  simp only at q1 q2 q3 q4
  refine ⟨M2, ?_, q1, q2, fun c hc => q4 c (by omega)⟩
  have hWl : N.topLevel = (N.d : Int) * N.n - N.n + N.d - (N.n + 1) := by rw [DR.topLevel]; ring
  rw [cokernelsToBasis, hall, check_true, Res.bind_ok, hsum, decide_eq_true rfl, check_true, Res.bind_ok, eM1,
    Res.bind_ok, eU, Res.bind_ok, hcomm, eV, Res.bind_ok, ← hcomm, eF, Res.bind_ok, hcomm, eL, Res.bind_ok, ← hcomm,
    eH, Res.bind_ok, eHd, Res.bind_ok, hWl, eWd, Res.bind_ok, eM2, Res.bind_ok, Res.pure_eq]

end Verif
