import Verif.Lemmas.FrobLoop

/-! The Frobenius functions keep the class of the whole sum. -/

namespace Verif

open Spec MvPolynomial

section

variable {R : Type} [CommRing R] [DecidableEq R]

/-- The terms with pole order `p e`, with their factor. -/
noncomputable def newPoly (D : DR R) (p m N : Nat) (ei : IVec) (e : Nat) : MvPolynomial (Fin (D.n + 1)) R :=
  if m ≤ e then (((djm m N (e - m) : Int) : R) * ((phi p (m + N - 1) e : Nat) : R)) •
    (expand p (DRpoly D ^ (e - m)) * xpow R (fun i => p * (ev D.n ei i + 1) - 1))
  else 0

/-- The terms with pole order above `p e`. -/
noncomputable def tailPoly (D : DR R) (p m N : Nat) (ei : IVec) (e : Nat) : MvPolynomial (Fin (D.n + 1)) R :=
  ∑ k ∈ Finset.Ico (e + 1) (m + N - 1 + 1), newPoly D p m N ei k

theorem tailPoly_succ (D : DR R) {p m N : Nat} (ei : IVec) {e : Nat} (h : e + 1 ≤ m + N - 1) :
    tailPoly D p m N ei e = newPoly D p m N ei (e + 1) + tailPoly D p m N ei (e + 1) :=
  Finset.sum_eq_sum_Ico_succ_bot (by omega) _

theorem tailPoly_top (D : DR R) (p m N : Nat) (ei : IVec) : tailPoly D p m N ei (m + N - 1) = 0 := by
  rw [tailPoly, Finset.Ico_self, Finset.sum_empty]

/-- Everything the loops are given. -/
structure FrobIn (D : DR R) (p : Nat) (L : List IVec) (T : List (MonMap R)) (ei : IVec) (m N : Nat)
    (var : FrobVar R) : Prop where
  ok : DROk D
  n1 : 1 ≤ D.n
  p1 : 1 ≤ p
  tab : IsTable D.n ((D.d * D.n - D.n : Nat) : Int) L
  var_ok : VarOK D p L m N var
  table : TableOK D.n D.d D.f T
  tlen : N ≤ T.length
  N1 : 1 ≤ N
  m1 : 1 ≤ m
  elen : ei.length = D.n + 1
  enn : NonNeg ei
  esum : ei.sum = (m : Int) * D.d - (D.n + 1)
  high : D.n / p ≤ m + N - 1

variable {D : DR R} {p m N : Nat} {L : List IVec} {T : List (MonMap R)} {ei : IVec} {var : FrobVar R}

theorem msum_coef {n : Nat} (c1 c2 : R) (x : IVec → MvPolynomial (Fin (n + 1)) R) (P : MonMap R) :
    msum (fun k a => (c1 * a * c2) • x k) P = (c1 * c2) • msum (fun k a => a • x k) P := by
  induction P with
  | nil => simp
  | cons e P ih => rw [msum_cons, ih, msum_cons, smul_add, smul_smul]; congr 2; ring

theorem FrobIn.listV (h : FrobIn D p L T ei m N var) :
    D.list ((D.d : Int) * D.n - D.n) = .ok L ∧ D.dict ((D.d : Int) * D.n - D.n) = .ok (buildDict L) := by
  have hd := h.ok.hd
  obtain ⟨L', hL', e1, e2⟩ := D.list_ok h.ok ((D.d : Int) * D.n - D.n) (by nlinarith) (by nlinarith)
  have hle : D.n ≤ D.d * D.n := Nat.le_mul_of_pos_left _ (by omega)
  have er : ((D.d * D.n - D.n : Nat) : Int) = (D.d : Int) * D.n - D.n := by rw [Nat.cast_sub hle]; push_cast; ring
  have ht := h.tab
  rw [er] at ht
  obtain rfl := ht.eq hL'
  exact ⟨e1, e2⟩

/-- Entry `j` of the table of powers. -/
theorem FrobIn.entry (h : FrobIn D p L T ei m N var) {j : Nat} (hj : j < N) :
    ∃ P, aget T j = .ok P ∧ WFPoly (D.n + 1) P ∧ (∀ t ∈ P, deg t.1 = (j : Int) * D.d) ∧
      msum (fun k a => a • xpow R (fun i => p * (ev D.n k i + ev D.n ei i + 1) - 1)) P =
        expand p (DRpoly D ^ j) * xpow R (fun i => p * (ev D.n ei i + 1) - 1) := by
  have hlt : j < T.length := lt_of_lt_of_le hj h.tlen
  obtain ⟨a1, a2, a3⟩ := h.table.entry j T[j] (List.getElem?_eq_getElem hlt)
  refine ⟨T[j], aget_of_lt _ _ hlt, a1, a3, ?_⟩
  rw [← expand_toPoly p h.p1 a1.1 (b := ev D.n ei) (fun i => nonNeg_getD h.enn i), a2]
  rfl

theorem coef_poly (h : FrobIn D p L T ei m N var) (Dj : Int) (fact : R) (P : MonMap R) :
    msum (fun k a => var.coef Dj a fact • xpow R (fun i => p * (ev D.n k i + ev D.n ei i + 1) - 1)) P =
      ((Dj : R) * fact) • msum (fun k a => a • xpow R (fun i => p * (ev D.n k i + ev D.n ei i + 1) - 1)) P := by
  rw [← msum_coef]
  simp only [h.var_ok.coef]

/-- Before pass `e`. -/
structure MainInv (D : DR R) (p m N : Nat) (L : List IVec) (ei : IVec) (e : Nat) (st : FrobState R) : Prop where
  fact : st.fact = ((phi p (m + N - 1) e : Nat) : R)
  terms : TermsOK D.n D.d L.length e st.H
  rel : cls D (tailPoly D p m N ei e) = cls D (msum (termPoly D.n p (D.d * D.n - D.n) L) st.H)

theorem frobNew_ok (h : FrobIn D p L T ei m N var) {e : Nat} (he : D.n / p < e + 1) (heM : e + 1 ≤ m + N - 1)
    {st : FrobState R} (hst : MainInv D p m N L ei (e + 1) st) :
    ∃ H, frobNew var D p T ei m N (e + 1) st = .ok H ∧ TermsOK D.n D.d L.length (e + 1) H ∧
      cls D (tailPoly D p m N ei e) = cls D (msum (termPoly D.n p (D.d * D.n - D.n) L) H) := by
  rw [tailPoly_succ D ei heM]
  unfold frobNew
  by_cases hm : m ≤ e + 1
  · obtain ⟨P, q1, q2, q3, q4⟩ := h.entry (j := e + 1 - m) (by have := h.N1; omega)
    have hd := h.ok.hd
    have hn1 := h.n1
    have hp1 := h.p1
    have hdm : D.n < p * (D.n / p) + p := by
      have := Nat.div_add_mod D.n p; have := Nat.mod_lt D.n hp1; omega
    have hpe : D.n ≤ p * (e + 1) := by
      have : p * (D.n / p + 1) ≤ p * (e + 1) := Nat.mul_le_mul_left p he
      rw [Nat.mul_add] at this; omega
    have hre : ((D.d * D.n - D.n : Nat) : Int) ≤ p * (((e + 1 : Nat) : Int) * D.d) := by
      have hle : D.n ≤ D.d * D.n := Nat.le_mul_of_pos_left _ (by omega)
      have hpe' : (D.n : Int) ≤ p * ((e + 1 : Nat) : Int) := by exact_mod_cast hpe
      rw [Nat.cast_sub hle]; push_cast at *; nlinarith
    obtain ⟨H, a1, a2, a3⟩ := addTerms_ok (c := fun a => var.coef (djm m N (e + 1 - m)) a st.fact) hd rfl h.tab
      h.elen h.enn h.esum hm hre q2 q3 hst.terms
    refine ⟨H, ?_, a2, ?_⟩
    · rw [if_pos hm, h.listV.2, Res.bind_ok, h.var_ok.djm _ (by have := h.N1; omega), Res.bind_ok, q1, Res.bind_ok, a1]
    · rw [a3, map_add, map_add, ← hst.rel, coef_poly h, q4, hst.fact, newPoly, if_pos hm]
      exact add_comm _ _
  · refine ⟨st.H, by rw [if_neg hm], hst.terms, ?_⟩
    rw [newPoly, if_neg hm, zero_add, hst.rel]

theorem frobPass_big (h : FrobIn D p L T ei m N var) {e : Nat} (he : D.n / p + 1 < e + 1)
    (heM : e + 1 ≤ m + N - 1) {st : FrobState R} (hst : MainInv D p m N L ei (e + 1) st) :
    ∃ st', frobPass var D p T ei m N (e + 1) st = .ok st' ∧ MainInv D p m N L ei e st' ∧ st'.last = st.last := by
  obtain ⟨H, a1, a2, a3⟩ := frobNew_ok h (by omega) heM hst
  obtain ⟨H', b1, b2, b3⟩ := frobTerms_big h.ok.hd h.p1 rfl h.var_ok he a2 st.last
  refine ⟨⟨factStep p (e + 1) st.fact, H', st.last⟩, ?_, ⟨?_, b2, ?_⟩, rfl⟩
  · rw [frobPass, a1, Res.bind_ok, b1, Res.bind_ok]; rfl
  · show factStep p (e + 1) st.fact = _
    rw [hst.fact, factStep_phi h.p1 (Nat.succ_pos _) heM]; rfl
  · rw [a3]; exact b3.symm

theorem frobPass_last (h : FrobIn D p L T ei m N var) (heM : D.n / p + 1 ≤ m + N - 1)
    {st : FrobState R} (hst : MainInv D p m N L ei (D.n / p + 1) st) {listH : List IVec}
    (eH : D.list ((D.d : Int) * D.n - D.n - 1) = .ok listH) (hl : st.last = CVec.mk' listH.length (fun _ => 0)) :
    ∃ st', frobPass var D p T ei m N (D.n / p + 1) st = .ok st' ∧
      st'.fact = ((phi p (m + N - 1) (D.n / p) : Nat) : R) ∧ st'.last.len = listH.length ∧
      cls D (tailPoly D p m N ei (D.n / p)) = cls D (combo D.n listH st'.last.e) := by
  obtain ⟨H, a1, a2, a3⟩ := frobNew_ok h (by omega) heM hst
  obtain ⟨last, b1, b2, b3⟩ := frobTerms_last h.ok h.n1 h.p1 rfl h.tab h.var_ok rfl eH a2 st.last (by rw [hl]; rfl)
  refine ⟨⟨factStep p (D.n / p + 1) st.fact, [], last⟩, ?_, ?_, b2, ?_⟩
  · rw [frobPass, a1, Res.bind_ok, b1, Res.bind_ok]; rfl
  · show factStep p (D.n / p + 1) st.fact = _
    rw [hst.fact, factStep_phi h.p1 (Nat.succ_pos _) heM]; rfl
  · rw [a3, b3]
    have : combo D.n listH st.last.e = 0 := by
      rw [hl]
      have : combo D.n listH (CVec.mk' listH.length (fun _ => (0 : R))).e = combo D.n listH (fun _ => (0 : R)) :=
        combo_congr (fun k hk => by simp only [CVec.mk', if_pos hk])
      rw [this]; simp [combo]
    rw [this, map_zero, zero_add]

theorem mainLoop_ok (h : FrobIn D p L T ei m N var) {listH : List IVec}
    (eH : D.list ((D.d : Int) * D.n - D.n - 1) = .ok listH) (cnt : Nat) :
    ∀ st : FrobState R, D.n / p + (cnt + 1) ≤ m + N - 1 → MainInv D p m N L ei (D.n / p + (cnt + 1)) st →
      st.last = CVec.mk' listH.length (fun _ => 0) →
      ∃ st', downTo (D.n / p) (frobPass var D p T ei m N) (cnt + 1) st = .ok st' ∧
        st'.fact = ((phi p (m + N - 1) (D.n / p) : Nat) : R) ∧ st'.last.len = listH.length ∧
        cls D (tailPoly D p m N ei (D.n / p)) = cls D (combo D.n listH st'.last.e) := by
  induction cnt with
  | zero =>
    intro st h1 h2 h3
    obtain ⟨st', a1, a2⟩ := frobPass_last h h1 h2 eH h3
    refine ⟨st', ?_, a2⟩
    rw [downTo]
    show frobPass var D p T ei m N (D.n / p + 1) st >>= _ = _
    rw [a1]; rfl
  | succ cnt ih =>
    intro st h1 h2 h3
    obtain ⟨st1, a1, a2, a3⟩ := frobPass_big h (e := D.n / p + (cnt + 1)) (by omega) h1 h2
    obtain ⟨st', b1, b2⟩ := ih st1 (by omega) a2 (by rw [a3, h3])
    refine ⟨st', ?_, b2⟩
    rw [downTo]
    show frobPass var D p T ei m N (D.n / p + (cnt + 1) + 1) st >>= _ = _
    rw [a1]; exact b1

/-- The main loop, from the start. -/
theorem mainLoop_start (h : FrobIn D p L T ei m N var) {listH : List IVec}
    (eH : D.list ((D.d : Int) * D.n - D.n - 1) = .ok listH) :
    ∃ st', downTo (D.n / p) (frobPass var D p T ei m N) (m + N - 1 - D.n / p)
        ⟨1, [], CVec.mk' listH.length (fun _ => 0)⟩ = .ok st' ∧
      st'.fact = ((phi p (m + N - 1) (D.n / p) : Nat) : R) ∧ st'.last.len = listH.length ∧
      cls D (tailPoly D p m N ei (D.n / p)) = cls D (combo D.n listH st'.last.e) := by
  have hh := h.high
  rcases Nat.eq_zero_or_pos (m + N - 1 - D.n / p) with h0 | h0
  · have hM : m + N - 1 = D.n / p := Nat.le_antisymm (Nat.sub_eq_zero_iff_le.1 h0) hh
    refine ⟨_, by rw [h0]; rfl, ?_, rfl, ?_⟩
    · rw [hM, phi_top]; simp
    · rw [← hM, tailPoly_top]
      have : combo D.n listH (CVec.mk' listH.length (fun _ => (0 : R))).e = combo D.n listH (fun _ => (0 : R)) :=
        combo_congr (fun k hk => by simp only [CVec.mk', if_pos hk])
      rw [this]; simp [combo]
  · obtain ⟨cnt, hc⟩ : ∃ cnt, m + N - 1 - D.n / p = cnt + 1 := ⟨m + N - 1 - D.n / p - 1, by omega⟩
    rw [hc]
    have he : D.n / p + (cnt + 1) = m + N - 1 := by rw [← hc]; exact Nat.add_sub_cancel' hh
    refine mainLoop_ok h eH cnt _ (le_of_eq he) ⟨?_, TermsOK.nil _ _ _ _, ?_⟩ rfl
    · rw [he, phi_top]; simp
    · rw [he, tailPoly_top]; simp

/-! ### The last loop -/

/-- Nothing is left in the storage past the length. -/
def BufOK (G0 : CVec R) : Prop := ∀ i, G0.len ≤ i → G0.e i = 0

/-- Before pass `e` of the last loop. -/
structure LastInv (D : DR R) (p m N : Nat) (ei : IVec) (e : Nat) (s : LastState R) : Prop where
  fact : s.fact = ((phi p (m + N - 1) e : Nat) : R)
  len : s.F.len = D.basis.length
  rel : ∃ c : Nat → R, (∀ r, r < D.basis.length → s.F.e r = (poleFact D r : R) * c r) ∧
    cls D (tailPoly D p m N ei e) =
      cls D (∑ r ∈ Finset.range D.basis.length, c r • xpow R (ev D.n (D.basis.getD r [])))
  buf : m ≤ e → BufOK s.G0

theorem frobSmall_ok [Nontrivial R] {solve : Solver R} (hsolve : SolverOK solve) (hB : BasisOK solve D)
    (h : FrobIn D p L T ei m N var) {e : Nat} (he1 : 1 ≤ e) (hpe : p * e ≤ D.n) (hme : m ≤ e) (heM : e ≤ m + N - 1)
    {s : LastState R} (hs : LastInv D p m N ei e s) :
    ∃ F G0, frobSmall var solve D p T ei m N e s.fact s.F s.G0 = .ok (F, G0) ∧ F.len = D.basis.length ∧
      (var.reuse = false → BufOK G0) ∧
      ∃ c : Nat → R, (∀ r, r < D.basis.length → F.e r = (poleFact D r : R) * c r) ∧
        cls D (newPoly D p m N ei e + tailPoly D p m N ei e) =
          cls D (∑ r ∈ Finset.range D.basis.length, c r • xpow R (ev D.n (D.basis.getD r []))) := by
  have hd := h.ok.hd
  have hN1 := h.N1
  have hpe0 : 1 ≤ p * e := Nat.mul_pos h.p1 he1
  obtain ⟨listF, M, cM, eM, hM⟩ := finalMatJ_ok hsolve h.ok hB (p * e) hpe0 hpe
  have hlv : ((p * e : Nat) : Int) * D.d - (D.n + 1) = (D.d : Int) * p * e - (D.n + 1) := by push_cast; ring
  have htab := hM.table
  have hlist := hM.list
  rw [hlv] at htab hlist
  have hpe' : (p : Int) * e ≤ D.n := by exact_mod_cast hpe
  have hpe0' : (1 : Int) ≤ p * e := by exact_mod_cast hpe0
  obtain ⟨listF', hF', e1, e2⟩ := D.list_ok h.ok ((D.d : Int) * p * e - (D.n + 1)) (by
    have : (D.d : Int) ≤ D.d * (p * e) := by nlinarith
    rw [mul_assoc]; omega) (by rw [mul_assoc]; nlinarith)
  obtain rfl := htab.eq hF'
  obtain ⟨P, q1, q2, q3, q4⟩ := h.entry (j := e - m) (by omega)
  -- the accumulation
  obtain ⟨G0, f1, ⟨f2, f3, f4⟩, f5⟩ := foldlM_acc
    (fun G : CVec R => G.len = listF.length ∧ (∀ i, listF.length ≤ i → G.e i = (s.G0.clearSet listF.length).e i) ∧ True)
    (fun G : CVec R => combo D.n listF G.e)
    (fun t : IVec × R => var.coef (djm m N (e - m)) t.2 s.fact • xpow R (fun i => p * (ev D.n t.1 i + ev D.n ei i + 1) - 1))
    (l := P)
    (f := fun (G0 : CVec R) it => do
      let a ← addVec it.1 ei
      let a ← addVec a (List.replicate (D.n + 1) 1)
      let mon ← subVec (mulVec p a) (List.replicate (D.n + 1) 1)
      let k ← look (buildDict listF) mon
      pure (⟨G0.len, fun i => G0.e i + if i = k then var.coef (djm m N (e - m)) it.2 s.fact else 0⟩ : CVec R)) (by
    rintro G t ht ⟨hG, hG2, -⟩
    obtain ⟨tl, t0⟩ := q2.1 t ht
    have l1 : (List.zipWith (· + ·) t.1 ei).length = D.n + 1 := by rw [List.length_zipWith, tl, h.elen, min_self]
    have l2 : (List.zipWith (· + ·) (List.zipWith (· + ·) t.1 ei) (List.replicate (D.n + 1) 1)).length = D.n + 1 := by
      rw [List.length_zipWith, l1, List.length_replicate, min_self]
    have hev : ev D.n (List.zipWith (· + ·) (List.zipWith (· + ·) t.1 ei) (List.replicate (D.n + 1) 1)) =
        fun i => ev D.n t.1 i + ev D.n ei i + 1 := by
      rw [ev_add (by rw [l1, List.length_replicate]), ev_add (by rw [tl, h.elen]), ev_ones]
      funext i; simp
    have l3 : (mulVec (p : Int) (List.zipWith (· + ·) (List.zipWith (· + ·) t.1 ei) (List.replicate (D.n + 1) 1))).length =
        (List.replicate (D.n + 1) (1 : Int)).length := by rw [mulVec_length, l2, List.length_replicate]
    have hevm : ev D.n (List.zipWith (· - ·) (mulVec (p : Int) (List.zipWith (· + ·) (List.zipWith (· + ·) t.1 ei) (List.replicate (D.n + 1) 1))) (List.replicate (D.n + 1) 1)) =
        fun i => p * (ev D.n t.1 i + ev D.n ei i + 1) - 1 := by
      rw [ev_sub l3, ev_mulVec, ev_ones, hev]; rfl
    have hsum : (List.zipWith (· + ·) (List.zipWith (· + ·) t.1 ei) (List.replicate (D.n + 1) (1 : Int))).sum = (e : Int) * D.d := by
      rw [sum_zipWith_add (by rw [l1, List.length_replicate]), sum_zipWith_add (by rw [tl, h.elen])]
      have h1 := q3 t ht
      rw [deg] at h1
      rw [h1, h.esum, List.sum_replicate, Nat.cast_sub hme]
      simp only [nsmul_eq_mul]; push_cast; ring
    have htup : IsTuple (D.n + 1) ((D.d : Int) * p * e - (D.n + 1))
        (List.zipWith (· - ·) (mulVec (p : Int) (List.zipWith (· + ·) (List.zipWith (· + ·) t.1 ei) (List.replicate (D.n + 1) 1))) (List.replicate (D.n + 1) 1)) := by
      refine tuple_of_ev (by rw [List.length_zipWith, mulVec_length, l2, List.length_replicate, min_self]) (fun i => ?_) ?_
      · rw [hevm]
        have h1 := nonNeg_getD t0 i
        have h2 := nonNeg_getD h.enn i
        have h3 : (1 : Int) ≤ p := by have := h.p1; omega
        simp only [ev]
        nlinarith
      · rw [ev_sub l3, Finset.sum_congr rfl (fun i _ => Pi.sub_apply _ _ i), Finset.sum_sub_distrib,
          sum_ev (by rw [mulVec_length, l2]), mulVec_sum, hsum, ev_ones]
        simp; ring
    obtain ⟨i1, i2, i3⟩ := htab.idx htup
    refine ⟨⟨G.len, fun i => G.e i + if i = listF.idxOf (List.zipWith (· - ·) (mulVec (p : Int) (List.zipWith (· + ·) (List.zipWith (· + ·) t.1 ei) (List.replicate (D.n + 1) 1))) (List.replicate (D.n + 1) 1)) then var.coef (djm m N (e - m)) t.2 s.fact else 0⟩, ?_, ⟨hG, ?_, trivial⟩, ?_⟩
    · rw [addVec_ok (by rw [tl, h.elen]), Res.bind_ok, addVec_ok (by rw [l1, List.length_replicate]), Res.bind_ok,
        subVec_ok l3, Res.bind_ok, i3, Res.bind_ok]
      rfl
    · intro i hi
      show G.e i + (if i = _ then _ else 0) = _
      rw [if_neg (by intro h5; rw [h5] at hi; exact absurd i1 (not_lt.2 hi)), add_zero]
      exact hG2 i hi
    · simp only []
      rw [combo_add, combo_single i1, i2, hevm]) (s.G0.clearSet listF.length) ⟨rfl, fun _ _ => rfl, trivial⟩
  have hz : combo D.n listF (s.G0.clearSet listF.length).e = 0 := by
    have : combo D.n listF (s.G0.clearSet listF.length).e = combo D.n listF (fun _ => (0 : R)) :=
      combo_congr (fun k _ => by
        simp only [CVec.clearSet]
        split
        · rfl
        · exact hs.buf hme k (by omega))
    rw [this]; simp [combo]
  have hG0 : combo D.n listF G0.e = newPoly D p m N ei e := by
    rw [f5, hz, zero_add]
    show msum (fun k a => var.coef (djm m N (e - m)) a s.fact • xpow R (fun i => p * (ev D.n k i + ev D.n ei i + 1) - 1)) P = _
    rw [coef_poly h, q4, hs.fact, newPoly, if_pos hme]
  obtain ⟨g, c', g1, g2, g3, g4⟩ := final_apply hM G0 f2
  obtain ⟨c, c1, c2⟩ := hs.rel
  refine ⟨CVec.mk' s.F.len (fun i => s.F.e i + g.e i), if var.reuse then G0.assign g else G0, ?_, hs.len, ?_,
    fun r => c r + c' r, ?_, ?_⟩
  · rw [frobSmall, e2, Res.bind_ok, buildDict_length htab.nodup, h.var_ok.djmLast _ (by omega) (by
        rw [Nat.add_sub_cancel' hme]; exact (Nat.le_div_iff_mul_le h.p1).2 (by rw [mul_comm]; exact hpe)), Res.bind_ok, q1,
      Res.bind_ok, f1, Res.bind_ok, eM, Res.bind_ok, g1, Res.bind_ok, CVec.add, if_pos (by rw [hs.len, g2]), Res.bind_ok]
    rfl
  · intro hre
    rw [hre]
    intro i hi
    have hi' : listF.length ≤ i := by
      have : G0.len ≤ i := hi
      omega
    show G0.e i = 0
    rw [f3 i hi']
    simp only [CVec.clearSet]
    split
    · rfl
    · exact hs.buf hme i (by omega)
  · intro r hr
    have hr' : r < s.F.len := by rw [hs.len]; exact hr
    simp only [CVec.mk', if_pos hr']
    rw [c1 r hr, g3 r hr]; ring
  · have e5 : ∑ r ∈ Finset.range D.basis.length, (c r + c' r) • xpow R (ev D.n (D.basis.getD r [])) =
        ∑ r ∈ Finset.range D.basis.length, c r • xpow R (ev D.n (D.basis.getD r [])) +
        ∑ r ∈ Finset.range D.basis.length, c' r • xpow R (ev D.n (D.basis.getD r [])) := by
      rw [← Finset.sum_add_distrib]
      exact Finset.sum_congr rfl (fun r _ => add_smul _ _ _)
    rw [e5, map_add, map_add, ← c2, ← cls_eq g4, hG0]
    exact add_comm _ _

theorem lastLoop_ok [Nontrivial R] {solve : Solver R} (hsolve : SolverOK solve) (hB : BasisOK solve D)
    (h : FrobIn D p L T ei m N var) (hre : var.reuse = true → D.n / p ≤ m) {lo : Nat} (cnt : Nat) :
    ∀ s : LastState R, lo + cnt ≤ D.n / p → LastInv D p m N ei (lo + cnt) s →
      ∃ s', downTo lo (frobLastPass var solve D p T ei m N) cnt s = .ok s' ∧ LastInv D p m N ei lo s' := by
  induction cnt with
  | zero => intro s _ hs; exact ⟨s, rfl, hs⟩
  | succ cnt ih =>
    intro s hle hs
    have hh := h.high
    have hmul : p * (lo + (cnt + 1)) ≤ D.n := by
      have := Nat.mul_le_mul_left p hle
      have := Nat.mul_div_le D.n p
      omega
    have heM : lo + cnt + 1 ≤ m + N - 1 := by omega
    have hcheck : (!var.assertFact || decide (s.fact = factorialR (p * (m + N - 1) - 1) (p * (lo + cnt + 1)))) = true := by
      rw [Bool.or_eq_true, decide_eq_true_eq]
      right
      rw [factorialR_phi h.p1 (by omega) heM, hs.fact]; rfl
    rw [downTo]
    by_cases hm : m ≤ lo + cnt + 1
    · obtain ⟨F, G0, a1, a2, a3, c, a4, a5⟩ := frobSmall_ok hsolve hB h (e := lo + cnt + 1) (by omega) hmul hm heM hs
      obtain ⟨s', b1, b2⟩ := ih ⟨factStep p (lo + cnt + 1) s.fact, F, G0⟩ (by omega)
        ⟨by
          show factStep p (lo + cnt + 1) s.fact = _
          rw [hs.fact, ← add_assoc, factStep_phi h.p1 (by omega) heM]; rfl, a2,
         ⟨c, a4, by rw [tailPoly_succ D ei heM]; exact a5⟩, fun hm2 => by
          cases hr : var.reuse with
          | false => exact a3 hr
          | true => have := hre hr; omega⟩
      refine ⟨s', ?_, b2⟩
      rw [frobLastPass, hcheck, check_true, Res.bind_ok, if_pos hm, a1, Res.bind_ok]
      exact b1
    · obtain ⟨s', b1, b2⟩ := ih ⟨factStep p (lo + cnt + 1) s.fact, s.F, s.G0⟩ (by omega)
        ⟨by
          show factStep p (lo + cnt + 1) s.fact = _
          rw [hs.fact, ← add_assoc, factStep_phi h.p1 (by omega) heM]; rfl, hs.len, by
          obtain ⟨c, c1, c2⟩ := hs.rel
          refine ⟨c, c1, ?_⟩
          rw [tailPoly_succ D ei heM, newPoly, if_neg hm, zero_add]
          exact c2, fun hm2 => by omega⟩
      refine ⟨s', ?_, b2⟩
      rw [frobLastPass, hcheck, check_true, Res.bind_ok, if_neg hm]
      exact b1

end

end Verif
