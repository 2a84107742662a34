import Verif.Lemmas.NDStep
import Verif.Lemmas.NDInit
import Verif.Lemmas.DeRhamFinal
import Verif.Lemmas.DeRhamMono
import Verif.Lemmas.PathIndep

/-!
`coKernels_ND_to_basis`: from the basis of cokernels to the cohomology basis.
-/

namespace Verif

open Spec MvPolynomial

variable {R : Type} [CommRing R]

/-- `col` holds the coordinates, with the factorials of the pole orders, of the monomial `mon`. -/
def ColJ (D : DR R) (mon : Fin (D.n + 1) → ℤ) (col : Nat → R) : Prop :=
  ∃ c : Nat → R, (∀ r, r < D.basis.length → col r = (poleFact D r : R) * c r) ∧
    xpow R mon - ∑ r ∈ Finset.range D.basis.length, c r • xpow R (ev D.n (D.basis.getD r [])) ∈ Ex (DRpoly D) D.d

theorem ColJ.congr {D : DR R} {mon mon' : Fin (D.n + 1) → ℤ} {col col' : Nat → R} (h : ColJ D mon col)
    (hm : mon = mon') (hc : ∀ r, r < D.basis.length → col' r = col r) : ColJ D mon' col' := by
  obtain ⟨c, h1, h2⟩ := h
  exact ⟨c, fun r hr => by rw [hc r hr, h1 r hr], hm ▸ h2⟩

theorem pred_tuple {n d : Nat} {u : IVec} (hu : IsTuple (n + 1) d u) (hpos : ∀ x ∈ u, 0 < x) :
    IsTuple (n + 1) ((d : Int) - (n + 1)) (u.map (· - 1)) ∧
      ev n (u.map (· - 1)) = fun i => ev n u i - 1 := by
  have hl : (u.map (· - 1)).length = n + 1 := by rw [List.length_map, hu.1]
  have hev : ev n (u.map (· - 1)) = fun i => ev n u i - 1 := by
    funext i
    have h1 : i.val < (u.map (· - 1)).length := by rw [hl]; exact i.isLt
    have h2 : i.val < u.length := by rw [hu.1]; exact i.isLt
    rw [ev, ev, getD_getElem _ _ _ h1, getD_getElem _ _ _ h2, List.getElem_map]
  refine ⟨tuple_of_ev hl (fun i => ?_) ?_, hev⟩
  · have h2 : i.val < u.length := by rw [hu.1]; exact i.isLt
    rw [hev]
    simp only [ev]
    rw [getD_getElem _ _ _ h2]
    have := hpos _ (List.getElem_mem h2)
    omega
  · rw [hev, Finset.sum_sub_distrib, sum_ev_tuple hu]
    simp

theorem flatMap_getD {α : Type} (g : Nat → List α) (x : α) {m l j : Nat} (hl : l < m) (hj : j < (g l).length) :
    ((List.range l).flatMap g).length + j < ((List.range m).flatMap g).length ∧
      ((List.range m).flatMap g).getD (((List.range l).flatMap g).length + j) x = (g l).getD j x := by
  induction m with
  | zero => omega
  | succ m ih =>
    rw [List.range_succ, List.flatMap_append, List.flatMap_singleton, List.length_append]
    by_cases h : l = m
    · subst h
      refine ⟨by omega, ?_⟩
      rw [List.getD_eq_getElem?_getD, List.getElem?_append_right (by omega), Nat.add_sub_cancel_left,
        ← List.getD_eq_getElem?_getD]
    · obtain ⟨h1, h2⟩ := ih (by omega)
      exact ⟨by omega, by rw [List.getD_eq_getElem?_getD, List.getElem?_append_left h1, ← List.getD_eq_getElem?_getD, h2]⟩

theorem flatMap_len_succ {α : Type} (g : Nat → List α) (l : Nat) :
    ((List.range (l + 1)).flatMap g).length = ((List.range l).flatMap g).length + (g l).length := by
  rw [List.range_succ, List.flatMap_append, List.flatMap_singleton, List.length_append]

theorem flatMap_len_mono {α : Type} (g : Nat → List α) {l m : Nat} (h : l ≤ m) :
    ((List.range l).flatMap g).length ≤ ((List.range m).flatMap g).length := by
  induction m with
  | zero => rw [Nat.le_zero.1 h]
  | succ m ih =>
    by_cases h' : l = m + 1
    · rw [h']
    · have := ih (by omega)
      rw [flatMap_len_succ]; omega

theorem putBlock_ok (M tmp : CMat R) (pos : Nat) (hr : tmp.rows ≤ M.rows) (hc : pos + tmp.cols ≤ M.cols) :
    ∃ M', putBlock M tmp pos = .ok M' ∧ M'.rows = M.rows ∧ M'.cols = M.cols ∧
      (∀ r c, c < pos → M'.e r c = M.e r c) ∧
      ∀ r c, r < tmp.rows → c < tmp.cols → M'.e r (pos + c) = tmp.e r c := by
  unfold putBlock
  obtain ⟨M', e, h1, h2, h3, h4⟩ := forRange_inv (n := tmp.rows) (s := M)
    (f := fun i M => forRange tmp.cols M (fun j M => M.put i (pos + j) (tmp.e i j)))
    (fun i (M' : CMat R) => M'.rows = M.rows ∧ M'.cols = M.cols ∧ (∀ r c, c < pos → M'.e r c = M.e r c) ∧
      ∀ r c, r < i → c < tmp.cols → M'.e r (pos + c) = tmp.e r c)
    ⟨rfl, rfl, fun _ _ _ => rfl, fun r c hr _ => by omega⟩ (by
      rintro i M1 hi ⟨a1, a2, a3, a4⟩
      obtain ⟨M2, e2, b1, b2, b3, b4, b5⟩ := forRange_inv (n := tmp.cols) (s := M1)
        (f := fun j M => M.put i (pos + j) (tmp.e i j))
        (fun j (M' : CMat R) => M'.rows = M.rows ∧ M'.cols = M.cols ∧ (∀ r c, c < pos → M'.e r c = M.e r c) ∧
          (∀ r c, r < i → c < tmp.cols → M'.e r (pos + c) = tmp.e r c) ∧
          ∀ c, c < j → M'.e i (pos + c) = tmp.e i c)
        ⟨a1, a2, a3, a4, fun c hc => by omega⟩ (by
          rintro j M2 hj ⟨b1, b2, b3, b4, b5⟩
          refine ⟨_, put_ok (by omega) (by omega) _, b1, b2, ?_, ?_, ?_⟩
          · intro r c hcp
            simp only
            rw [if_neg (by omega), b3 r c hcp]
          · intro r c hr' hc'
            simp only
            rw [if_neg (by omega), b4 r c hr' hc']
          · intro c hcj
            simp only
            by_cases h : c = j
            · rw [if_pos ⟨trivial, by omega⟩, h]
            · rw [if_neg (by omega), b5 c (by omega)])
      refine ⟨M2, e2, b1, b2, b3, fun r c hr' hc' => ?_⟩
      by_cases h : r = i
      · rw [h]; exact b5 c hc'
      · exact b4 r c (by omega) hc')
  exact ⟨M', e, h1, h2, h3, h4⟩

section

variable {solve : Solver R} {N : ND R}

theorem inclMatND_ok (hsolve : SolverOK solve) (hD : DROk N.toDR) {u : IVec} (hu : IsTuple (N.n + 1) N.d u)
    (hpos : ∀ x ∈ u, 0 < x) {l : Nat} (hl : l < N.n)
    (hblk : NDBlockOK solve N.toDR l (ndBlock solve N.toDR l)) :
    ∃ listG M, IsTable N.n (((l : Int) + 1) * N.d - (N.n + 1)) listG ∧
      N.list (((l : Int) + 1) * N.d - (N.n + 1)) = .ok listG ∧ inclMatND solve N u l = .ok M ∧
      M.rows = listG.length ∧ M.cols = (ndBlock solve N.toDR l).length ∧
      ∃ k : Nat → Nat, ∀ j, j < M.cols → k j < listG.length ∧
        ev N.n (listG.getD (k j) []) = (fun i => ev N.n u i + ev N.n ((ndBlock solve N.toDR l).getD j []) i - 1) ∧
        ∀ r, r < M.rows → M.e r j = if r = k j then 1 else 0 := by
  have hd := hD.hd
  have h0 : (0 : Int) ≤ (l : Int) * N.d := by positivity
  have h1 : ((l : Int) + 1) * N.d ≤ (N.n + 1) * N.d := by apply mul_le_mul_of_nonneg_right <;> omega
  obtain ⟨L, B, U, hL, eL, eU, hs, hlt⟩ := solveND_shape hsolve hD ((l : Int) * N.d) h0 (by linarith)
  obtain ⟨listG, hG, eG, eGd⟩ := N.list_ok hD (((l : Int) + 1) * N.d - (N.n + 1)) (by nlinarith) (by nlinarith)
  have hb := hblk.eq B U L eU eL
  obtain ⟨hp, hpe⟩ := pred_tuple hu hpos
  have hlen : (ndBlock solve N.toDR l).length = B.length := by rw [hb, List.length_map]
  have hget : ∀ j (hj : j < B.length), (ndBlock solve N.toDR l).getD j [] = L.getD B[j] [] := by
    intro j hj
    have hj' : j < (B.map (fun j => L.getD j [])).length := by rw [List.length_map]; exact hj
    rw [hb, getD_getElem (B.map (fun j => L.getD j [])) [] j hj', List.getElem_map]
  have htup : ∀ j, j < B.length → addVec ((ndBlock solve N.toDR l).getD j []) (u.map (· - 1)) =
        .ok (List.zipWith (· + ·) ((ndBlock solve N.toDR l).getD j []) (u.map (· - 1))) ∧
      IsTuple (N.n + 1) (((l : Int) + 1) * N.d - (N.n + 1))
        (List.zipWith (· + ·) ((ndBlock solve N.toDR l).getD j []) (u.map (· - 1))) ∧
      ev N.n (List.zipWith (· + ·) ((ndBlock solve N.toDR l).getD j []) (u.map (· - 1))) =
        (fun i => ev N.n u i + ev N.n ((ndBlock solve N.toDR l).getD j []) i - 1) := by
    intro j hj
    have ht : IsTuple (N.n + 1) ((l : Int) * N.d) ((ndBlock solve N.toDR l).getD j []) := by
      rw [hget j hj]; exact hL.tuple (hlt _ (List.getElem_mem hj))
    obtain ⟨a1, a2, a3⟩ := tuple_add ht hp
    refine ⟨a1, ?_, ?_⟩
    · rw [show ((l : Int) + 1) * N.d - (N.n + 1) = (l : Int) * N.d + (N.d - (N.n + 1)) by ring]; exact a2
    · rw [a3, hpe]; funext i; simp only [Pi.add_apply]; ring
  obtain ⟨M, eM, m1, m2, m3⟩ := forRange_inv (n := B.length)
    (s := CMat.mk' listG.length B.length (fun _ _ => (0 : R)))
    (f := fun j M => do
      let b ← aget B j
      let t ← aget L b
      let w ← addVec t (u.map (· - 1))
      let row ← look (buildDict listG) w
      M.put row j 1)
    (fun j' (M : CMat R) => M.rows = listG.length ∧ M.cols = B.length ∧
      ∀ r j, j < B.length → M.e r j = if j < j' ∧ r = listG.idxOf (List.zipWith (· + ·)
        ((ndBlock solve N.toDR l).getD j []) (u.map (· - 1))) then 1 else 0)
    ⟨rfl, rfl, fun r j _ => by
      rw [if_neg (by omega)]; simp only [CMat.mk']; split <;> rfl⟩ (by
      rintro j M hj ⟨m1, m2, m3⟩
      have hbl := hlt _ (List.getElem_mem hj)
      obtain ⟨t1, t2, t3⟩ := htup j hj
      obtain ⟨i1, i2, i3⟩ := hG.idx t2
      rw [aget_of_lt _ _ hj, Res.bind_ok, aget_of_lt _ _ hbl, Res.bind_ok, ← getD_getElem L [] _ hbl, ← hget j hj,
        t1, Res.bind_ok, i3, Res.bind_ok]
      refine ⟨_, put_ok (by omega) (by omega) _, m1, m2, fun r j' hj' => ?_⟩
      simp only
      by_cases h : j' = j
      · subst h
        by_cases hr : r = listG.idxOf (List.zipWith (· + ·) ((ndBlock solve N.toDR l).getD j' []) (u.map (· - 1)))
        · rw [if_pos ⟨hr, rfl⟩, if_pos ⟨by omega, hr⟩]
        · rw [if_neg (fun h => hr h.1), m3 r j' hj', if_neg (by omega), if_neg (fun h => hr h.2)]
      · rw [if_neg (fun h' => h h'.2), m3 r j' hj']
        by_cases hlt' : j' < j
        · simp [hlt', Nat.lt_succ_of_lt hlt']
        · rw [if_neg (fun h' => hlt' h'.1), if_neg (by omega)])
  refine ⟨listG, M, hG, eG, ?_, m1, by rw [m2, hlen], fun j => listG.idxOf (List.zipWith (· + ·)
        ((ndBlock solve N.toDR l).getD j []) (u.map (· - 1))), ?_⟩
  · have hall : u.all (fun x => decide (0 < x)) = true := by
      rw [List.all_eq_true]; intro x hx; simpa using hpos x hx
    have hsum : sumVec u = N.d := by rw [sumVec_eq_sum]; exact hu.2.2
    rw [inclMatND, hall, check_true, Res.bind_ok, hsum, decide_eq_true rfl, check_true, Res.bind_ok,
      decide_eq_true hl, check_true, Res.bind_ok, eU, Res.bind_ok, eL, Res.bind_ok, eG, Res.bind_ok, eGd, Res.bind_ok]
    exact eM
  · intro j hj
    rw [m2] at hj
    obtain ⟨t1, t2, t3⟩ := htup j hj
    obtain ⟨i1, i2, i3⟩ := hG.idx t2
    refine ⟨i1, by rw [i2, t3], fun r hr => ?_⟩
    rw [m3 r j hj]
    simp [hj]

/-- One low block: the product of the final reduction matrix and the inclusion matrix. -/
theorem lowBlock_ok [Nontrivial R] (hsolve : SolverOK solve) (hD : DROk N.toDR) (hB : BasisOK solve N.toDR) {u : IVec}
    (hu : IsTuple (N.n + 1) N.d u) (hpos : ∀ x ∈ u, 0 < x) {l : Nat} (hl : l < N.n)
    (hblk : NDBlockOK solve N.toDR l (ndBlock solve N.toDR l)) :
    ∃ A B tmp, finalMatJ solve N.toDR (l + 1) = .ok A ∧ inclMatND solve N u l = .ok B ∧ A.mul B = .ok tmp ∧
      tmp.rows = N.basis.length ∧ tmp.cols = (ndBlock solve N.toDR l).length ∧
      ∀ j, j < tmp.cols → ColJ N.toDR
        (fun i => ev N.n u i + ev N.n ((ndBlock solve N.toDR l).getD j []) i - 1) (fun r => tmp.e r j) := by
  obtain ⟨L, A, c, eA, hA⟩ := finalMatJ_ok hsolve hD hB (l + 1) (by omega) (by omega)
  obtain ⟨listG, B, hG, eG, eB, b1, b2, k, hk⟩ := inclMatND_ok hsolve hD hu hpos hl hblk
  have hLG : L = listG := by
    have := hA.list
    push_cast at this
    rw [eG] at this
    exact (Except.ok.inj this).symm
  subst hLG
  obtain ⟨tmp, et, t1, t2, t3⟩ := CMat.mul_ok A B (by rw [hA.cols, b1])
  refine ⟨A, B, tmp, eA, eB, et, by rw [t1, hA.rows], by rw [t2, b2], fun j hj => ?_⟩
  rw [t2] at hj
  obtain ⟨k1, k2, k3⟩ := hk j hj
  refine ⟨fun r => c r (k j), fun r hr => ?_, ?_⟩
  · show tmp.e r j = (poleFact N.toDR r : R) * c r (k j)
    rw [t3 r j (by rw [hA.rows]; exact hr) hj, hA.cols, Finset.sum_eq_single (k j)]
    · rw [k3 _ (by rw [b1]; exact k1), if_pos rfl, mul_one, hA.fact r _ hr k1]
    · intro x hx hne
      rw [k3 x (by rw [b1]; exact Finset.mem_range.1 hx), if_neg hne, mul_zero]
    · intro h; exact absurd (Finset.mem_range.2 k1) h
  · have := hA.rel (k j) k1
    rw [k2] at this
    exact this

/-- The derivatives of `x^a F_i`. -/
theorem ndDeriv_ok {n : Nat} {lF lA lH : Int} {listF listH : List IVec} (hF : IsTable n lF listF)
    (hH : IsTable n lH listH) {a : IVec} (ha : IsTuple (n + 1) lA a) (hlev : lA + lF = lH + 1)
    {F : CVec R} (hFl : (n + 1) * listF.length ≤ F.len) :
    ∃ H, ndDeriv n listF listH (buildDict listH) a F = .ok H ∧ H.len = listH.length ∧
      combo n listH H.e = ∑ i : Fin (n + 1), ∑ s ∈ Finset.range listF.length,
        (F.e (i.val * listF.length + s) * (((ev n a + ev n (listF.getD s [])) i : ℤ) : R)) •
          xpow R (ev n a + ev n (listF.getD s []) - Pi.single i 1) := by
  unfold ndDeriv
  obtain ⟨H, e, h1, h2⟩ := forRange_inv (n := n + 1) (s := CVec.mk' listH.length (fun _ => (0 : R)))
    (f := fun i H => forRange listF.length H (fun s H => do
      let m ← addVec a (listF.getD s [])
      if 0 < m.getD i 0 then
        let t ← subVec m (ndUnit n i)
        let row ← look (buildDict listH) t
        let x ← F.at (i * listF.length + s)
        if row < H.len then
          pure ⟨H.len, upd H.e row (H.e row + ((m.getD i 0 : Int) : R) * x)⟩
        else .error .ub
      else .ok H))
    (fun i' (H : CVec R) => H.len = listH.length ∧ combo n listH H.e =
      ∑ i : Fin (n + 1), if i.val < i' then ∑ s ∈ Finset.range listF.length,
        (F.e (i.val * listF.length + s) * (((ev n a + ev n (listF.getD s [])) i : ℤ) : R)) •
          xpow R (ev n a + ev n (listF.getD s []) - Pi.single i 1) else 0)
    ⟨rfl, by
      rw [combo_congr (fun r hr => mk'_e_of_lt _ hr), combo_zero]
      simp⟩ (by
      rintro i H hi ⟨h1, h2⟩
      obtain ⟨H', e', g1, g2⟩ := forRange_inv (n := listF.length) (s := H)
        (f := fun s H => do
          let m ← addVec a (listF.getD s [])
          if 0 < m.getD i 0 then
            let t ← subVec m (ndUnit n i)
            let row ← look (buildDict listH) t
            let x ← F.at (i * listF.length + s)
            if row < H.len then
              pure ⟨H.len, upd H.e row (H.e row + ((m.getD i 0 : Int) : R) * x)⟩
            else .error .ub
          else .ok H)
        (fun s' (H' : CVec R) => H'.len = listH.length ∧ combo n listH H'.e = combo n listH H.e +
          ∑ s ∈ Finset.range s',
            (F.e (i * listF.length + s) * (((ev n a + ev n (listF.getD s [])) ⟨i, hi⟩ : ℤ) : R)) •
              xpow R (ev n a + ev n (listF.getD s []) - (Pi.single (⟨i, hi⟩ : Fin (n + 1)) 1 : Fin (n + 1) → ℤ)))
        ⟨h1, by simp⟩ (by
          rintro s H1 hs ⟨k1, k2⟩
          obtain ⟨a1, a2, a3⟩ := tuple_add ha (hF.tuple hs)
          rw [a1, Res.bind_ok]
          have hm : (List.zipWith (· + ·) a (listF.getD s [])).getD i 0 =
              (ev n a + ev n (listF.getD s [])) ⟨i, hi⟩ := by rw [← a3]; rfl
          by_cases h0 : 0 < (List.zipWith (· + ·) a (listF.getD s [])).getD i 0
          · have hl : (List.zipWith (· + ·) a (listF.getD s [])).length = (ndUnit n i).length := by
              rw [a2.1, ndUnit_length]
            have hev : ev n (List.zipWith (· - ·) (List.zipWith (· + ·) a (listF.getD s [])) (ndUnit n i)) =
                ev n a + ev n (listF.getD s []) - (Pi.single (⟨i, hi⟩ : Fin (n + 1)) 1 : Fin (n + 1) → ℤ) := by
              rw [ev_sub hl, a3]
              congr 1
              funext j
              have := ev_ndUnit (⟨i, hi⟩ : Fin (n + 1)) j
              simp only at this
              rw [this]
              by_cases hj : j = ⟨i, hi⟩
              · rw [if_pos hj, hj, Pi.single_eq_same]
              · rw [if_neg hj, Pi.single_eq_of_ne hj]
            have ht : IsTuple (n + 1) lH
                (List.zipWith (· - ·) (List.zipWith (· + ·) a (listF.getD s [])) (ndUnit n i)) := by
              refine tuple_of_ev (by rw [List.length_zipWith, a2.1, ndUnit_length, min_self]) (fun j => ?_) ?_
              · rw [hev, Pi.sub_apply]
                by_cases hj : j = ⟨i, hi⟩
                · rw [hj, Pi.single_eq_same]; rw [hm] at h0; omega
                · rw [Pi.single_eq_of_ne hj, sub_zero]
                  exact add_nonneg (ev_nonneg ha j) (ev_nonneg (hF.tuple hs) j)
              · rw [hev, Finset.sum_congr rfl (fun j _ => Pi.sub_apply _ _ j), Finset.sum_sub_distrib,
                  Finset.sum_congr rfl (fun j _ => Pi.add_apply _ _ j), Finset.sum_add_distrib, sum_ev_tuple ha,
                  sum_ev_tuple (hF.tuple hs)]
                simp
                omega
            obtain ⟨i1, i2, i3⟩ := hH.idx ht
            have hlt := rowMajor_lt hi hs
            rw [if_pos h0, subVec_ok hl, Res.bind_ok, i3, Res.bind_ok, CVec.at, if_pos (by omega), Res.bind_ok,
              if_pos (by omega), Res.pure_eq]
            refine ⟨_, rfl, k1, ?_⟩
            simp only
            rw [combo_congr (G' := fun r => H1.e r + if r = listH.idxOf (List.zipWith (· - ·)
                (List.zipWith (· + ·) a (listF.getD s [])) (ndUnit n i)) then
                (((List.zipWith (· + ·) a (listF.getD s [])).getD i 0 : Int) : R) * F.e (i * listF.length + s) else 0)
              (fun r _ => by
                simp only [upd]
                split
                · rename_i h; rw [h]
                · rw [add_zero]), combo_add, combo_single i1, i2, hev, k2, Finset.sum_range_succ, hm, add_assoc,
                mul_comm (((_ : ℤ)) : R)]
          · rw [if_neg h0]
            refine ⟨H1, rfl, k1, ?_⟩
            have hz : (ev n a + ev n (listF.getD s [])) ⟨i, hi⟩ = 0 := by
              have h3 := add_nonneg (ev_nonneg ha ⟨i, hi⟩) (ev_nonneg (hF.tuple hs) ⟨i, hi⟩)
              rw [Pi.add_apply]
              rw [hm, Pi.add_apply] at h0
              omega
            rw [k2, Finset.sum_range_succ, hz]
            simp)
      refine ⟨H', e', g1, ?_⟩
      rw [g2, h2]
      have hsplit : ∀ g : Fin (n + 1) → MvPolynomial (Fin (n + 1)) R,
          (∑ j : Fin (n + 1), if j.val < i + 1 then g j else 0) =
            (∑ j : Fin (n + 1), if j.val < i then g j else 0) + g ⟨i, hi⟩ := by
        intro g
        have : ∀ j : Fin (n + 1), (if j.val < i + 1 then g j else 0) =
            (if j.val < i then g j else 0) + (if j = ⟨i, hi⟩ then g j else 0) := by
          intro j
          by_cases h1 : j = ⟨i, hi⟩
          · subst h1; simp
          · have : j.val ≠ i := fun h => h1 (Fin.ext h)
            rw [if_neg h1, add_zero]
            by_cases h2 : j.val < i
            · rw [if_pos h2, if_pos (by omega)]
            · rw [if_neg h2, if_neg (by omega)]
        rw [Finset.sum_congr rfl (fun j _ => this j), Finset.sum_add_distrib]
        simp
      rw [hsplit])
  refine ⟨H, e, h1, ?_⟩
  rw [h2]
  exact Finset.sum_congr rfl (fun i _ => by rw [if_pos i.isLt])

end

end Verif
