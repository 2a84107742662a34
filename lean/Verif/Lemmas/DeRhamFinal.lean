import Verif.Lemmas.DeRhamRed
import Verif.Lemmas.Tools

/-!
The final reduction of `de_Rham_local`.
-/

namespace Verif

open Spec MvPolynomial

variable {R : Type} [CommRing R]

/-- The contribution of `F_i`, monomial `s`, to entry `row` of `H`. -/
def hTerm (listF listH : List IVec) (F : Nat → R) (i s : Nat) : Nat → R := fun row =>
  if row = listH.idxOf ((listF.getD s []).set i ((listF.getD s []).getD i 0 - 1)) then
    (((listF.getD s []).getD i 0 : Int) : R) * F (i * listF.length + s) else 0

theorem diff_tuple {n : Nat} {l : Int} {t : IVec} (ht : IsTuple (n + 1) l t) (i : Nat) (hi : i < n + 1)
    (h0 : 0 < t.getD i 0) :
    diffVec t i = .ok (t.set i (t.getD i 0 - 1)) ∧ IsTuple (n + 1) (l - 1) (t.set i (t.getD i 0 - 1)) ∧
    ev n (t.set i (t.getD i 0 - 1)) = ev n t - Pi.single ⟨i, hi⟩ 1 := by
  have hil : i < t.length := by rw [ht.1]; exact hi
  have hx : t[i]? = some (t.getD i 0) := by
    rw [getD_getElem _ _ _ hil, List.getElem?_eq_getElem hil]
  have hev : ev n (t.set i (t.getD i 0 - 1)) = ev n t - Pi.single ⟨i, hi⟩ 1 := by
    funext j
    rw [ev, getD_set _ _ _ _ hil, Pi.sub_apply, ev]
    by_cases hj : j.val = i
    · have : j = ⟨i, hi⟩ := Fin.ext hj
      rw [if_pos hj, this, Pi.single_eq_same]
    · have : j ≠ ⟨i, hi⟩ := fun h => hj (by rw [h])
      rw [if_neg hj, Pi.single_eq_of_ne this, sub_zero]
  refine ⟨?_, ?_, hev⟩
  · rw [diffVec, hx]
    simp only [decide_eq_true h0, check_true, Res.bind_ok, Res.pure_eq]
  · refine tuple_of_ev (by rw [List.length_set, ht.1]) (fun j => ?_) ?_
    · exact nonNeg_getD (nonNeg_set ht.2.1 i (by omega)) j
    · rw [hev, Finset.sum_congr rfl (fun j _ => Pi.sub_apply _ _ j), Finset.sum_sub_distrib,
        sum_ev_tuple ht]
      simp

theorem finalH_ok {n : Nat} {l : Int} {listF listH : List IVec} (hF : IsTable n l listF)
    (hH : IsTable n (l - 1) listH) (U : CMat R) (k : Nat)
    (hr : (n + 1) * listF.length ≤ U.rows) (hk : k < U.cols) :
    finalH n listF (buildDict listH) U k
      = .ok (∑ i ∈ Finset.range (n + 1), ∑ s ∈ Finset.range listF.length,
          hTerm listF listH (fun x => U.e x k) i s) := by
  have := forRange_add₂ (M := Nat → R) (n + 1) listF.length 0
      (hTerm listF listH (fun x => U.e x k))
      (fun i s H =>
      if 0 < (listF.getD s []).getD i 0 then do
        let df ← diffVec (listF.getD s []) i
        let row ← look (buildDict listH) df
        let F ← U.at (i * listF.length + s) k
        pure (upd H row (H row + (((listF.getD s []).getD i 0 : Int) : R) * F))
      else .ok H) ?_
  · rw [zero_add] at this
    exact this
  · intro i s H hi hs
    have hst := hF.tuple hs
    by_cases h0 : 0 < (listF.getD s []).getD i 0
    · obtain ⟨e1, e2, -⟩ := diff_tuple hst i hi h0
      obtain ⟨-, -, e3⟩ := hH.idx e2
      have := rowMajor_lt hi hs
      rw [if_pos h0, e1, Res.bind_ok, e3, Res.bind_ok, at_ok (by omega) hk, Res.bind_ok, Res.pure_eq]
      congr 1
      funext row
      simp only [upd, hTerm, Pi.add_apply]
      split
      · rename_i h; rw [h]
      · simp
    · rw [if_neg h0]
      have : (listF.getD s []).getD i 0 = 0 := by have := nonNeg_getD hst.2.1 i; omega
      congr 1
      funext row
      rw [Pi.add_apply, hTerm, this]
      simp

theorem finalCol_ok {D : DR R} {l : Int} {listF listH listG : List IVec} (hF : IsTable D.n l listF)
    (hH : IsTable D.n (l - 1) listH) (Mlow : CMat R) (hMr : Mlow.rows = D.basis.length)
    (hMc : Mlow.cols = listH.length) (B : List Nat) (U : CMat R) (fact : Int) (k : Nat)
    (hr : U.rows = (D.n + 1) * listF.length + B.length) (hk : k < U.cols)
    (hdict : D.basisDict = buildDict D.basis) (hnd : D.basis.Nodup)
    (hB : ∀ b ∈ B, b < listG.length ∧ listG.getD b [] ∈ D.basis) :
    ∃ col, finalCol D Mlow listG listF listH (buildDict listH) B U fact k = .ok col ∧
      ∀ r, r < D.basis.length → col.e r
        = ∑ row ∈ Finset.range listH.length, Mlow.e r row *
            (∑ i ∈ Finset.range (D.n + 1), ∑ s ∈ Finset.range listF.length,
              hTerm listF listH (fun x => U.e x k) i s) row
          + ∑ b ∈ Finset.range B.length,
              if r = D.basis.idxOf (listG.getD (B.getD b 0) []) then
                (fact : R) * U.e ((D.n + 1) * listF.length + b) k else 0 := by
  rw [finalCol, finalH_ok hF hH U k (by omega) hk, Res.bind_ok]
  generalize hHH : (∑ i ∈ Finset.range (D.n + 1), ∑ s ∈ Finset.range listF.length,
              hTerm listF listH (fun x => U.e x k) i s) = H
  have h1 : Mlow.mulVec (CVec.mk' listH.length H) = .ok (CVec.mk' D.basis.length (fun r =>
      sumLoop listH.length (fun row => Mlow.e r row * (CVec.mk' listH.length H).e row))) := by
    rw [CMat.mulVec, if_pos (show Mlow.cols = (CVec.mk' listH.length H).len from hMc), hMr, hMc]
  rw [h1, Res.bind_ok]
  obtain ⟨s, e, hs1, hs2⟩ := forRange_inv (n := B.length)
    (s := CVec.mk' D.basis.length (fun r =>
      sumLoop listH.length (fun row => Mlow.e r row * (CVec.mk' listH.length H).e row)))
    (f := fun i row => do
      let b ← aget B i
      let t ← aget listG b
      let j ← look D.basisDict t
      let F ← U.at ((D.n + 1) * listF.length + i) k
      if j < row.len then (pure ⟨row.len, upd row.e j (row.e j + (fact : R) * F)⟩ : Res (CVec R))
      else .error .ub)
    (fun i v => v.len = D.basis.length ∧ ∀ r, r < D.basis.length → v.e r
        = ∑ row ∈ Finset.range listH.length, Mlow.e r row * H row
          + ∑ b ∈ Finset.range i,
              if r = D.basis.idxOf (listG.getD (B.getD b 0) []) then
                (fact : R) * U.e ((D.n + 1) * listF.length + b) k else 0)
    (by
      refine ⟨rfl, fun r hr => ?_⟩
      rw [CVec.mk']
      simp only [if_pos hr, sumLoop_eq_sum, Finset.range_zero, Finset.sum_empty, add_zero]
      refine Finset.sum_congr rfl (fun row hrow => ?_)
      simp only [CVec.mk', if_pos (Finset.mem_range.1 hrow)])
    (by
      rintro i v hi ⟨v1, v2⟩
      have hb := hB _ (List.getElem_mem hi)
      have hb2 : B.getD i 0 = B[i] := getD_getElem _ _ _ hi
      have ht : listG.getD B[i] [] = listG[B[i]] := getD_getElem _ _ _ hb.1
      have hidx := List.idxOf_lt_length_iff.2 hb.2
      have hlook : look D.basisDict (listG.getD B[i] []) = .ok (D.basis.idxOf (listG.getD B[i] [])) := by
        have h3 := find?_buildDict_of_nodup D.basis hnd _ hidx
        rw [List.getElem_idxOf hidx] at h3
        rw [look, hdict, h3]
      rw [aget_of_lt _ _ hi, Res.bind_ok, aget_of_lt _ _ hb.1, Res.bind_ok, ← ht, hlook, Res.bind_ok,
        at_ok (by omega) hk, Res.bind_ok, if_pos (by rw [v1]; exact hidx), Res.pure_eq]
      refine ⟨_, rfl, v1, fun r hr => ?_⟩
      rw [Finset.sum_range_succ, hb2]
      simp only [upd]
      split
      · rename_i h; rw [v2 _ (by rw [← h]; exact hr), h]; ring
      · rw [v2 r hr, add_zero])
  exact ⟨s, e, hs2⟩

/-- `(k-1)!` for the pole order `k` of basis element `r`. -/
def poleFact (D : DR R) (r : Nat) : ℕ := (poleOrder D.n D.d (D.basis.getD r []) - 1).factorial

omit [CommRing R] in
theorem poleOrder_eq {n d k : Nat} {t : IVec} (hd : 0 < d)
    (h : IsTuple (n + 1) ((k : Int) * d - (n + 1)) t) : poleOrder n d t = k := by
  rw [poleOrder, h.2.2]
  have : (k : Int) * d - (n + 1) + n + 1 = k * d := by ring
  rw [this, Int.mul_ediv_cancel _ (by omega)]
  simp

/-- What a final reduction matrix for pole order `k` says. -/
structure FinalOK (D : DR R) (k : Nat) (L : List IVec) (M : CMat R) (c : Nat → Nat → R) : Prop where
  table : IsTable D.n ((k : Int) * D.d - (D.n + 1)) L
  list : D.list ((k : Int) * D.d - (D.n + 1)) = .ok L
  rows : M.rows = D.basis.length
  cols : M.cols = L.length
  fact : ∀ r t, r < D.basis.length → t < L.length → M.e r t = (poleFact D r : R) * c r t
  rel : ∀ t, t < L.length → xpow R (ev D.n (L.getD t []))
    - ∑ r ∈ Finset.range D.basis.length, c r t • xpow R (ev D.n (D.basis.getD r []))
      ∈ Ex (DRpoly D) D.d

/-- In the first block every monomial is in the basis. -/
theorem first_block [Nontrivial R] {solve : Solver R} (hsolve : SolverOK solve) {D : DR R}
    (hD : DROk D) (hB : BasisOK solve D) (hn : 1 ≤ D.n) {L : List IVec}
    (eL : D.list ((D.d : Int) - (D.n + 1)) = .ok L) :
    ∀ t, t < L.length → L.getD t [] ∈ D.basis := by
  have hd := hD.hd
  obtain ⟨L', hL', eL', eT⟩ := matrixJ_small hD ((D.d : Int) - (D.n + 1)) (by omega) (by omega)
  rw [eL] at eL'
  cases eL'
  obtain ⟨B, U, eU, hU⟩ := hsolve (CMat.mk' L.length 0 (fun _ _ => (0 : R)))
  have es : solveJ solve D ((D.d : Int) - (D.n + 1)) = .ok (B, U) := by
    rw [solveJ, eT]; exact eU
  intro t ht
  have hmem : t ∈ B := by
    by_contra hn
    have := congrFun (congrFun hU.eq ⟨t, ht⟩) ⟨t, ht⟩
    rw [Matrix.mul_apply, Matrix.one_apply_eq, Finset.sum_eq_zero] at this
    · exact one_ne_zero this.symm
    · intro j _
      rw [augment]
      have h0 : ¬ j.val < (CMat.mk' L.length 0 (fun _ _ => (0 : R))).cols := by
        simp [CMat.mk']
      rw [dif_neg h0, if_neg, zero_mul]
      intro h
      apply hn
      have hj : j.val - (CMat.mk' L.length 0 (fun _ _ => (0 : R))).cols < B.length := by
        have := j.isLt
        omega
      rw [getD_getElem _ _ _ hj] at h
      have h' : t = _ := h
      rw [h']
      exact List.getElem_mem hj
  have := hB.block 1 (le_refl _) hn B U L (by simpa using es) (by simpa using eL) t hmem
  exact this

theorem finalMat1_ok [Nontrivial R] {solve : Solver R} (hsolve : SolverOK solve) {D : DR R}
    (hD : DROk D) (hB : BasisOK solve D) (hn : 1 ≤ D.n) :
    ∃ L M c, finalMatJ solve D 1 = .ok M ∧ FinalOK D 1 L M c := by
  have hd := hD.hd
  have : ((D.n : Int) + 1) * D.d ≥ D.d := by nlinarith
  obtain ⟨L, hL, eL, -⟩ := D.list_ok hD ((D.d : Int) - (D.n + 1)) (by omega) (by omega)
  have hall := first_block hsolve hD hB hn eL
  refine ⟨L, CMat.mk' D.basis.length L.length (fun i j =>
    if L.getD j [] = D.basis.getD i [] then 1 else 0),
    fun r t => if L.getD t [] = D.basis.getD r [] then 1 else 0, ?_, ?_, ?_, rfl, rfl, ?_, ?_⟩
  · rw [finalMatJ, decide_eq_true hn, check_true, Res.bind_ok, finalMat1, eL, Res.bind_ok, Res.pure_eq]
  · simpa using hL
  · simpa using eL
  · intro r t hr ht
    simp only [CMat.mk', hr, ht, and_self, if_true]
    split
    · rename_i h
      rw [poleFact, ← h, poleOrder_eq (k := 1) (by omega) (by simpa using hL.tuple ht)]
      simp
    · simp
  · intro t ht
    have hidx := List.idxOf_lt_length_iff.2 (hall t ht)
    rw [Finset.sum_eq_single (D.basis.idxOf (L.getD t []))]
    · rw [getD_getElem _ _ _ hidx, List.getElem_idxOf hidx, if_pos rfl, one_smul, sub_self]
      exact Submodule.zero_mem _
    · intro r hr hne
      have hr' := Finset.mem_range.1 hr
      rw [if_neg, zero_smul]
      intro h
      apply hne
      rw [h, getD_getElem _ _ _ hr', hB.nodup.idxOf_getElem]
    · intro h
      exact absurd (Finset.mem_range.2 hidx) h

theorem finalMatStep_ok {solve : Solver R} (hsolve : SolverOK solve) {D : DR R}
    (hD : DROk D) (hB : BasisOK solve D) (k : Nat) (hk1 : 2 ≤ k) (hkn : k ≤ D.n) {listH : List IVec}
    {Mlow : CMat R} {c : Nat → Nat → R} (hlow : FinalOK D (k - 1) listH Mlow c) :
    ∃ L M c, finalMatStep solve D Mlow k = .ok M ∧ FinalOK D k L M c := by
  have hd := hD.hd
  have hkd : (D.d : Int) * 2 ≤ k * D.d := by nlinarith
  have hkd2 : (k : Int) * D.d ≤ D.n * D.d := by nlinarith
  have hkd3 : ((D.n : Int) + 1) * D.d = D.n * D.d + D.d := by ring
  have hk' : ((k - 1 : Nat) : Int) = (k : Int) - 1 := by omega
  have elow1 : (k : Int) * D.d - (D.n + 1) - (D.d - 1) - 1 = ((k - 1 : Nat) : Int) * D.d - (D.n + 1) := by
    rw [hk']; ring
  have elow2 : (k : Int) * D.d - (D.n + 1) - D.d = ((k - 1 : Nat) : Int) * D.d - (D.n + 1) := by
    rw [hk']; ring
  obtain ⟨L, S, B, U, hL, hS, eL, eS, eU, hr, hc, -, hBlt, hdec⟩ :=
    solveJ_ok hsolve hD ((k : Int) * D.d - (D.n + 1)) (by omega) (by omega)
  obtain ⟨L2, -, eL2, eL2'⟩ := D.list_ok hD ((k : Int) * D.d - (D.n + 1) - D.d) (by omega) (by omega)
  rw [elow2, hlow.list] at eL2
  cases eL2
  have hH : IsTable D.n ((k : Int) * D.d - (D.n + 1) - (D.d - 1) - 1) listH := by
    rw [elow1]; exact hlow.table
  have hBm : ∀ b ∈ B, b < L.length ∧ L.getD b [] ∈ D.basis := fun b hb =>
    ⟨hBlt b hb, hB.block k (by omega) hkn B U L eU eL b hb⟩
  have hBd : ∀ b, b < B.length → B.getD b 0 < L.length ∧ L.getD (B.getD b 0) [] ∈ D.basis := by
    intro b hb
    have := hBm _ (List.getElem_mem hb)
    rwa [← getD_getElem B 0 b hb] at this
  have hcol : ∀ t, ∃ col, t < L.length → finalCol D Mlow L S listH (buildDict listH) B U
      (prodFrom 1 (k - 1)) t = .ok col ∧ ∀ r, r < D.basis.length → col.e r
        = ∑ row ∈ Finset.range listH.length, Mlow.e r row *
            (∑ i ∈ Finset.range (D.n + 1), ∑ s ∈ Finset.range S.length,
              hTerm S listH (fun x => U.e x t) i s) row
          + ∑ b ∈ Finset.range B.length,
              if r = D.basis.idxOf (L.getD (B.getD b 0) []) then
                ((prodFrom 1 (k - 1) : Int) : R) * U.e ((D.n + 1) * S.length + b) t else 0 := by
    intro t
    by_cases ht : t < L.length
    · obtain ⟨col, h1, h2⟩ := finalCol_ok hS hH Mlow hlow.rows hlow.cols B U (prodFrom 1 (k - 1)) t
        hr (by omega) hB.dict hB.nodup hBm
      exact ⟨col, fun _ => ⟨h1, h2⟩⟩
    · exact ⟨⟨0, fun _ => 0⟩, fun h => absurd h ht⟩
  choose col hcol using hcol
  obtain ⟨Mt, eM, hM⟩ := forRange_inv (n := L.length) (s := ((fun _ _ => 0) : Nat → Nat → R))
    (f := fun t Mt => do
      let col ← finalCol D Mlow L S listH (buildDict listH) B U (prodFrom 1 (k - 1)) t
      pure (upd Mt t col.e))
    (fun t Mt => ∀ j, j < t → Mt j = (col j).e) (fun j h => by omega) (by
      intro t Mt ht hMt
      rw [(hcol t ht).1, Res.bind_ok]
      refine ⟨_, rfl, fun j hj => ?_⟩
      rw [upd]
      split
      · rename_i h; rw [h]
      · exact hMt j (by omega))
  refine ⟨L, CMat.mk' D.basis.length L.length (fun i j => Mt j i), fun r t => ∑ row ∈ Finset.range listH.length, c r row *
            (∑ i ∈ Finset.range (D.n + 1), ∑ s ∈ Finset.range S.length,
              hTerm S listH (fun x => U.e x t) i s) row
          + ∑ b ∈ Finset.range B.length,
              if r = D.basis.idxOf (L.getD (B.getD b 0) []) then
                U.e ((D.n + 1) * S.length + b) t else 0, ?_, hL, eL, ?_, ?_, ?_, ?_⟩
  · rw [finalMatStep]
    simp only [eL, eS, elow2, hlow.list, Res.bind_ok]
    rw [elow2] at eL2'
    rw [eL2', Res.bind_ok, eU, Res.bind_ok]
    simp only
    rw [eM]
    rfl
  · rfl
  · rfl
  · intro r t hr ht
    have e1 : (CMat.mk' D.basis.length L.length (fun i j => Mt j i)).e r t = (col t).e r := by
      simp only [CMat.mk', hr, ht, and_self, if_true, hM t ht]
    rw [e1, (hcol t ht).2 r hr, mul_add, Finset.mul_sum, Finset.mul_sum]
    congr 1
    · refine Finset.sum_congr rfl (fun row hrow => ?_)
      rw [hlow.fact r row hr (Finset.mem_range.1 hrow)]; ring
    · refine Finset.sum_congr rfl (fun b hb => ?_)
      split
      · rename_i h
        have hb' := hBd b (Finset.mem_range.1 hb)
        have hpf : poleFact D r = (k - 1).factorial := by
          have hidx := List.idxOf_lt_length_iff.2 hb'.2
          rw [poleFact, h, getD_getElem _ _ _ hidx, List.getElem_idxOf hidx,
            poleOrder_eq (k := k) (by omega) (hL.tuple hb'.1)]
        rw [hpf, prodFrom_one]
        push_cast
        rfl
      · rw [mul_zero]
  · intro t ht
    rw [hdec t ht]
    set H := ∑ i ∈ Finset.range (D.n + 1), ∑ s ∈ Finset.range S.length,
              hTerm S listH (fun x => U.e x t) i s with hHdef
    -- the derivative part
    have h1 : ∑ i : Fin (D.n + 1), combo D.n S (fun s => U.e (i.val * S.length + s) t)
              * pderiv i (DRpoly D) - combo D.n listH H ∈ Ex (DRpoly D) D.d := by
      have e1 : combo D.n listH H = ∑ i : Fin (D.n + 1), ∑ s ∈ Finset.range S.length,
          (U.e (i.val * S.length + s) t * ((ev D.n (S.getD s []) i : ℤ) : R)) •
            xpow R (ev D.n (S.getD s []) - Pi.single i 1) := by
        have e2 : ∀ row, H row = ∑ i ∈ Finset.range (D.n + 1), ∑ s ∈ Finset.range S.length,
            hTerm S listH (fun x => U.e x t) i s row := by
          intro row
          rw [hHdef, Finset.sum_apply]
          exact Finset.sum_congr rfl (fun i _ => Finset.sum_apply _ _ _)
        rw [combo, Finset.sum_congr rfl (fun row _ => by rw [e2 row])]
        simp only [Finset.sum_smul]
        rw [Finset.sum_comm, Finset.sum_range]
        refine Finset.sum_congr rfl (fun i _ => ?_)
        rw [Finset.sum_comm]
        refine Finset.sum_congr rfl (fun s hs => ?_)
        have hst := hS.tuple (Finset.mem_range.1 hs)
        by_cases h0 : 0 < (S.getD s []).getD i 0
        · obtain ⟨-, d2, d3⟩ := diff_tuple hst i.val i.isLt h0
          obtain ⟨i1, i2, -⟩ := hH.idx d2
          rw [Finset.sum_eq_single (listH.idxOf ((S.getD s []).set i ((S.getD s []).getD i 0 - 1)))]
          · rw [i2, d3, hTerm, if_pos rfl, mul_comm]
            rfl
          · intro row _ hne
            rw [hTerm, if_neg hne, zero_smul]
          · intro h; exact absurd (Finset.mem_range.2 i1) h
        · have h1 : (S.getD s []).getD i 0 = 0 := by have := nonNeg_getD hst.2.1 i; omega
          have h2 : ev D.n (S.getD s []) i = 0 := h1
          rw [h2, Int.cast_zero, mul_zero, zero_smul]
          refine Finset.sum_eq_zero (fun row _ => ?_)
          rw [hTerm, h1]
          simp
      rw [e1, ← Finset.sum_sub_distrib]
      refine Submodule.sum_mem _ (fun i _ => ?_)
      rw [combo, Finset.sum_mul, ← Finset.sum_sub_distrib]
      refine Submodule.sum_mem _ (fun s hs => ?_)
      have hst := hS.tuple (Finset.mem_range.1 hs)
      rw [smul_mul_assoc, ← smul_smul, ← smul_sub]
      refine Submodule.smul_mem _ _ (Ex_mem _ _ (k - 1) i _ (by omega) (ev_nonneg hst) ?_)
      rw [sum_ev_tuple hst, hk']
      ring
    -- the part of lower pole order
    have h2 : combo D.n listH H - ∑ row ∈ Finset.range listH.length, H row •
        ∑ r ∈ Finset.range D.basis.length, c r row • xpow R (ev D.n (D.basis.getD r []))
        ∈ Ex (DRpoly D) D.d := by
      rw [combo, ← Finset.sum_sub_distrib]
      refine Submodule.sum_mem _ (fun row hrow => ?_)
      rw [← smul_sub]
      exact Submodule.smul_mem _ _ (hlow.rel row (Finset.mem_range.1 hrow))
    have h3 : ∑ b ∈ Finset.range B.length, U.e ((D.n + 1) * S.length + b) t •
              xpow R (ev D.n (L.getD (B.getD b 0) []))
        = ∑ r ∈ Finset.range D.basis.length, (∑ b ∈ Finset.range B.length,
              if r = D.basis.idxOf (L.getD (B.getD b 0) []) then
                U.e ((D.n + 1) * S.length + b) t else 0) • xpow R (ev D.n (D.basis.getD r [])) := by
      simp only [Finset.sum_smul]
      rw [Finset.sum_comm]
      refine Finset.sum_congr rfl (fun b hb => ?_)
      have hb' := hBd b (Finset.mem_range.1 hb)
      have hidx := List.idxOf_lt_length_iff.2 hb'.2
      rw [Finset.sum_eq_single (D.basis.idxOf (L.getD (B.getD b 0) []))]
      · rw [if_pos rfl, getD_getElem D.basis _ _ hidx, List.getElem_idxOf hidx]
      · intro r _ hne
        rw [if_neg hne, zero_smul]
      · intro h; exact absurd (Finset.mem_range.2 hidx) h
    have h4 : ∑ row ∈ Finset.range listH.length, H row •
        ∑ r ∈ Finset.range D.basis.length, c r row • xpow R (ev D.n (D.basis.getD r []))
        = ∑ r ∈ Finset.range D.basis.length, (∑ row ∈ Finset.range listH.length, c r row * H row) •
          xpow R (ev D.n (D.basis.getD r [])) := by
      simp only [Finset.smul_sum, Finset.sum_smul, smul_smul]
      rw [Finset.sum_comm]
      refine Finset.sum_congr rfl (fun r _ => Finset.sum_congr rfl (fun row _ => ?_))
      rw [mul_comm]
    simp only [add_smul, Finset.sum_add_distrib]
    rw [h3, ← h4]
    have := Submodule.add_mem _ h1 h2
    rw [sub_add_sub_cancel] at this
    rw [add_sub_add_right_eq_sub]
    exact this

theorem finalMatJ_ok [Nontrivial R] {solve : Solver R} (hsolve : SolverOK solve) {D : DR R}
    (hD : DROk D) (hB : BasisOK solve D) (k : Nat) (hk1 : 1 ≤ k) (hkn : k ≤ D.n) :
    ∃ L M c, finalMatJ solve D k = .ok M ∧ FinalOK D k L M c := by
  induction k with
  | zero => omega
  | succ k ih =>
    rcases Nat.eq_zero_or_pos k with rfl | hk
    · exact finalMat1_ok hsolve hD hB (by omega)
    · obtain ⟨k, rfl⟩ : ∃ k', k = k' + 1 := ⟨k - 1, by omega⟩
      obtain ⟨L, M, c, e, hM⟩ := ih (by omega) (by omega)
      obtain ⟨L', M', c', e', hM'⟩ := finalMatStep_ok hsolve hD hB (k + 2) (by omega) hkn
        (by simpa using hM)
      refine ⟨L', M', c', ?_, hM'⟩
      rw [finalMatJ, decide_eq_true hkn, check_true, Res.bind_ok, e, Res.bind_ok, e']

end Verif
