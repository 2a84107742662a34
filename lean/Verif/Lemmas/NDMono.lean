import Verif.Lemmas.NDTop

/-!
`monomial_to_basis_ND`: the direction search, the loop and the last step.
-/

namespace Verif

open Spec MvPolynomial

/-! ### The direction -/

/-- How much can be taken from `u` while leaving positive entries positive. -/
def slack (u : IVec) : Int := (u.map (fun x => max (x - 1) 0)).sum

/-- `0 <= v` and `u - v` is positive where `v` is not zero. -/
def BelowN (u v : IVec) : Prop := List.Forall₂ (fun x y => 0 ≤ y ∧ (y = 0 ∨ y < x)) u v

theorem bumpND_some {u v : IVec} (h : BelowN u v) (hs : v.sum < slack u) :
    ∃ v', bumpND u v = some v' ∧ BelowN u v' ∧ v'.sum = v.sum + 1 := by
  induction h with
  | nil => simp [slack] at hs
  | @cons x y u v hxy huv ih =>
    rw [bumpND]
    by_cases hc : y + 1 < x
    · rw [if_pos hc]
      refine ⟨_, rfl, List.Forall₂.cons ⟨by omega, by omega⟩ huv, ?_⟩
      simp only [List.sum_cons]; omega
    · rw [if_neg hc]
      obtain ⟨v', e, h1, h2⟩ := ih (by
        simp only [slack, List.map_cons, List.sum_cons] at hs ⊢
        omega)
      refine ⟨y :: v', by rw [e]; rfl, List.Forall₂.cons hxy h1, ?_⟩
      simp only [List.sum_cons, h2]; omega

theorem BelowN.le {u v : IVec} (h : BelowN u v) : v.sum ≤ slack u := by
  induction h with
  | nil => simp [slack]
  | cons h _ ih =>
    simp only [slack, List.map_cons, List.sum_cons] at ih ⊢
    omega

theorem bumpND_none {u v : IVec} (h : BelowN u v) (hs : slack u ≤ v.sum) : bumpND u v = none := by
  induction h with
  | nil => rfl
  | @cons x y u v hxy huv ih =>
    have hle := BelowN.le huv
    simp only [slack, List.map_cons, List.sum_cons] at hs hle ih
    rw [bumpND, if_neg (by omega), ih (by omega)]
    rfl

theorem dirLoopND_ok {u : IVec} (k : Nat) : ∀ {v : IVec}, BelowN u v → v.sum + k ≤ slack u →
    ∃ v', dirLoopND u k v = .ok v' ∧ BelowN u v' ∧ v'.sum = v.sum + k := by
  induction k with
  | zero => intro v h _; exact ⟨v, rfl, h, by simp⟩
  | succ k ih =>
    intro v h hs
    obtain ⟨v1, e1, h1, s1⟩ := bumpND_some h (by push_cast at hs; omega)
    obtain ⟨v2, e2, h2, s2⟩ := ih h1 (by push_cast at hs; omega)
    refine ⟨v2, ?_, h2, by rw [s2, s1]; push_cast; ring⟩
    rw [dirLoopND, e1]
    exact e2

theorem dirLoopND_diverge {u : IVec} (k : Nat) : ∀ {v : IVec}, BelowN u v → slack u < v.sum + k →
    dirLoopND u k v = .error .diverge := by
  induction k with
  | zero => intro v h hs; have := h.le; push_cast at hs; omega
  | succ k ih =>
    intro v h hs
    rw [dirLoopND]
    by_cases hb : slack u ≤ v.sum
    · rw [bumpND_none h hb]
    · obtain ⟨v1, e1, h1, s1⟩ := bumpND_some h (by omega)
      rw [e1]
      exact ih h1 (by push_cast at hs; omega)

theorem belowN_init (u : IVec) : BelowN u (u.map (fun _ => (0 : Int))) ∧ (u.map (fun _ => (0 : Int))).sum = 0 := by
  induction u with
  | nil => exact ⟨List.Forall₂.nil, rfl⟩
  | cons x u ih => exact ⟨List.Forall₂.cons ⟨le_rfl, Or.inl rfl⟩ ih.1, by rw [List.map_cons, List.sum_cons, ih.2]; rfl⟩

theorem directionND_ok {d : Nat} {u : IVec} (hs : (d : Int) ≤ slack u) :
    ∃ v, directionND d u = .ok v ∧ BelowN u v ∧ v.sum = d := by
  obtain ⟨h1, h2⟩ := belowN_init u
  obtain ⟨v, e, hv, hsum⟩ := dirLoopND_ok d h1 (by rw [h2]; omega)
  exact ⟨v, e, hv, by rw [hsum, h2]; ring⟩

theorem directionND_diverge {d : Nat} {u : IVec} (hs : slack u < d) : directionND d u = .error .diverge := by
  obtain ⟨h1, h2⟩ := belowN_init u
  exact dirLoopND_diverge d h1 (by rw [h2]; omega)

theorem BelowN.length {u v : IVec} (h : BelowN u v) : v.length = u.length := h.length_eq.symm

theorem BelowN.getD {u v : IVec} (h : BelowN u v) (i : Nat) :
    0 ≤ v.getD i 0 ∧ (v.getD i 0 = 0 ∨ v.getD i 0 < u.getD i 0) := by
  induction h generalizing i with
  | nil => simp
  | cons hxy _ ih =>
    cases i with
    | zero => simpa using hxy
    | succ i => simpa using ih i

theorem slack_of_pos {u : IVec} (h : ∀ x ∈ u, 0 < x) : slack u = u.sum - u.length := by
  induction u with
  | nil => simp [slack]
  | cons x u ih =>
    have h1 := ih (fun y hy => h y (List.mem_cons_of_mem _ hy))
    have hx := h x (by simp)
    simp only [slack, List.map_cons, List.sum_cons, List.length_cons] at h1 ⊢
    push_cast
    omega

theorem slack_ge (u : IVec) : (u.map (· - 1)).sum ≤ slack u := by
  induction u with
  | nil => simp [slack]
  | cons x u ih =>
    simp only [slack, List.map_cons, List.sum_cons] at ih ⊢
    omega

theorem ev_pos {n : Nat} {u : IVec} (hl : u.length = n + 1) (h : ∀ x ∈ u, 0 < x) (i : Fin (n + 1)) : 1 ≤ ev n u i := by
  have hi : i.val < u.length := by rw [hl]; exact i.isLt
  rw [ev, getD_getElem _ _ _ hi]
  have := h _ (List.getElem_mem hi)
  omega

theorem pos_of_ev {n : Nat} {u : IVec} (hl : u.length = n + 1) (h : ∀ i, 1 ≤ ev n u i) : ∀ x ∈ u, 0 < x := by
  intro x hx
  obtain ⟨k, hk, rfl⟩ := List.getElem_of_mem hx
  have := h ⟨k, by omega⟩
  rw [ev] at this
  simp only at this
  rw [getD_getElem _ _ _ hk] at this
  omega

/-- One pass: the direction exists and what is left is positive. -/
theorem directionND_step {n d : Nat} {u : IVec} (hl : u.length = n + 1) (hpos : ∀ x ∈ u, 0 < x)
    (hs : (d : Int) + (n + 1) ≤ u.sum) :
    ∃ v u', directionND d u = .ok v ∧ subVec u v = .ok u' ∧ IsTuple (n + 1) d v ∧
      u'.length = n + 1 ∧ (∀ x ∈ u', 0 < x) ∧ ev n u = ev n u' + ev n v ∧ u'.sum = u.sum - d := by
  obtain ⟨v, e, hv, hsv⟩ := directionND_ok (d := d) (u := u) (by rw [slack_of_pos hpos, hl]; push_cast; omega)
  have hvl : v.length = n + 1 := by rw [hv.length, hl]
  have hevs : ev n (List.zipWith (· - ·) u v) = ev n u - ev n v := ev_sub (by omega)
  have hul : (List.zipWith (· - ·) u v).length = n + 1 := by rw [List.length_zipWith, hl, hvl, min_self]
  refine ⟨v, _, e, subVec_ok (by omega), tuple_of_ev hvl (fun i => (hv.getD i).1) (by rw [sum_ev hvl, hsv]), hul, ?_, ?_, ?_⟩
  · apply pos_of_ev hul
    intro i
    rw [hevs]
    have h1 := ev_pos hl hpos i
    have h2 := hv.getD i
    simp only [Pi.sub_apply, ev] at h1 ⊢
    omega
  · rw [hevs]; simp
  · rw [← sum_ev hul, hevs, Finset.sum_congr rfl (fun i _ => Pi.sub_apply _ _ i),
      Finset.sum_sub_distrib, sum_ev hl, sum_ev hvl, hsv]

/-! ### The loop and the last step -/

variable {R : Type} [CommRing R] {solve : Solver R} {N : ND R}

/-- A step between positive exponents, in terms of the relations. -/
theorem stepND_Ex [DecidableEq R] (hsolve : SolverOK solve) (hN : NDOk solve N) {u v : IVec} (hul : u.length = N.n + 1)
    (hpos : ∀ x ∈ u, 0 < x) (hv : IsTuple (N.n + 1) N.d v) {m : Nat} (hu : u.sum = m * N.d)
    {G : CVec R} (hG : G.len = N.ndBasis.length) :
    ∃ H, reduceVectorND solve N u v G = .ok H ∧ H.len = N.ndBasis.length ∧
      xpow R (fun i => ev N.n u i + ev N.n v i - 1) * combo N.n N.ndBasis G.e
        - xpow R (fun i => ev N.n u i - 1) * combo N.n N.ndBasis H.e ∈ Ex (DRpoly N.toDR) N.d := by
  obtain ⟨M, -, -, -, h⟩ := stepND_ok hsolve hN hv (m := m) hu
  obtain ⟨H, e, -, l, hrel⟩ := h G hG
  refine ⟨H, e, l, ?_⟩
  have h1 := ev_pos hul hpos
  have := hrel _ _ (torForm_rel (f := DRpoly N.toDR) (d := N.d) h1 (m := m) (by rw [sum_ev hul, hu]))
  rw [torForm, LinearMap.comp_apply, LinearMap.comp_apply, LinearMap.mulLeft_apply, LinearMap.mulLeft_apply,
    Submodule.mkQ_apply, Submodule.mkQ_apply, Submodule.Quotient.eq, ← mul_assoc,
    xpow_mul (fun i => by have := h1 i; omega) (ev_nonneg hv)] at this
  have e2 : (fun i => ev N.n u i + ev N.n v i - 1) = (fun i => ev N.n u i - 1) + ev N.n v := by
    funext i; simp only [Pi.add_apply]; ring
  rw [e2]
  exact this

theorem mtbLoopND_ok [DecidableEq R] (hsolve : SolverOK solve) (hN : NDOk solve N) (cnt : Nat) :
    ∀ (u : IVec) (G : CVec R), u.length = N.n + 1 → (∀ x ∈ u, 0 < x) → u.sum = ((cnt + 1 : Nat) : Int) * N.d →
      G.len = N.ndBasis.length →
      ∃ u' G', mtbLoopND solve N cnt u G = .ok (u', G') ∧ IsTuple (N.n + 1) N.d u' ∧ (∀ x ∈ u', 0 < x) ∧
        G'.len = N.ndBasis.length ∧
        xpow R (fun i => ev N.n u i - 1) * combo N.n N.ndBasis G.e
          - xpow R (fun i => ev N.n u' i - 1) * combo N.n N.ndBasis G'.e ∈ Ex (DRpoly N.toDR) N.d := by
  have hd := hN.dr.hd
  induction cnt with
  | zero =>
    intro u G hul hpos hs hG
    refine ⟨u, G, rfl, ⟨hul, fun x hx => le_of_lt (hpos x hx), ?_⟩, hpos, hG, by rw [sub_self]; exact Submodule.zero_mem _⟩
    show u.sum = _
    rw [hs]; push_cast; ring
  | succ cnt ih =>
    intro u G hul hpos hs hG
    obtain ⟨v, u', ev1, es, hv, hul', hpos', hev, hsum⟩ := directionND_step hul hpos (d := N.d) (by
      rw [hs]; push_cast; nlinarith)
    have hs' : u'.sum = ((cnt + 1 : Nat) : Int) * N.d := by rw [hsum, hs]; push_cast; ring
    obtain ⟨H, eH, lH, hH⟩ := stepND_Ex hsolve hN hul' hpos' hv hs' hG
    obtain ⟨u2, G2, e2, a1, a2, a3, a4⟩ := ih u' H hul' hpos' hs' lH
    refine ⟨u2, G2, ?_, a1, a2, a3, ?_⟩
    · rw [mtbLoopND, ev1, Res.bind_ok, es, Res.bind_ok, eH, Res.bind_ok, e2]
    · have e3 : (fun i => ev N.n u' i + ev N.n v i - 1) = fun i => ev N.n u i - 1 := by
        rw [hev]; rfl
      rw [e3] at hH
      have := Submodule.add_mem _ hH a4
      rwa [sub_add_sub_cancel] at this

/-- The last step: coordinates in the cokernel basis at `u` of degree `d` go to coordinates in the
cohomology basis. -/
theorem lastND_ok [Nontrivial R] (hsolve : SolverOK solve) (hN : NDOk solve N) (htop : TopOK solve N.toDR)
    (hB : BasisOK solve N.toDR)
    (hbasis : N.ndBasis = (List.range (N.n + 1)).flatMap (ndBlock solve N.toDR))
    (hblk : ∀ i, i < N.n + 1 → NDBlockOK solve N.toDR i (ndBlock solve N.toDR i))
    {u : IVec} (hu : IsTuple (N.n + 1) N.d u) (hpos : ∀ x ∈ u, 0 < x) :
    ∃ M, cokernelsToBasis solve N u = .ok M ∧ M.rows = N.basis.length ∧ M.cols = N.ndBasis.length ∧
      ∀ G : CVec R, G.len = N.ndBasis.length → ∃ H, ∃ c : Nat → R, M.mulVec G = .ok H ∧ H.len = N.basis.length ∧
        (∀ r, r < N.basis.length → H.e r = (poleFact N.toDR r : R) * c r) ∧
        xpow R (fun i => ev N.n u i - 1) * combo N.n N.ndBasis G.e
          - ∑ r ∈ Finset.range N.basis.length, c r • xpow R (ev N.n (N.basis.getD r [])) ∈ Ex (DRpoly N.toDR) N.d := by
  obtain ⟨M, eM, hr, hc, hcol⟩ := cokernelsToBasis_ok hsolve hN.dr htop hB hN.pos hbasis hblk hu hpos
  refine ⟨M, eM, hr, hc, fun G hG => ?_⟩
  obtain ⟨H, eH, lH, vH⟩ := mulVec_ok M G (by rw [hc, hG])
  have hch : ∀ k, ∃ c : Nat → R, k < N.ndBasis.length → (∀ r, r < N.basis.length → M.e r k = (poleFact N.toDR r : R) * c r) ∧
      xpow R (fun i => ev N.n u i + ev N.n (N.ndBasis.getD k []) i - 1)
        - ∑ r ∈ Finset.range N.basis.length, c r • xpow R (ev N.n (N.basis.getD r [])) ∈ Ex (DRpoly N.toDR) N.d := by
    intro k
    by_cases hk : k < N.ndBasis.length
    · obtain ⟨c, h1, h2⟩ := hcol k hk
      exact ⟨c, fun _ => ⟨h1, h2⟩⟩
    · exact ⟨fun _ => 0, fun h => absurd h hk⟩
  choose c hcc using hch
  refine ⟨H, fun r => ∑ k ∈ Finset.range N.ndBasis.length, c k r * G.e k, eH, by rw [lH, hr], fun r hr' => ?_, ?_⟩
  · rw [vH r (by rw [hr]; exact hr'), hc, Finset.mul_sum]
    refine Finset.sum_congr rfl (fun k hk => ?_)
    rw [(hcc k (Finset.mem_range.1 hk)).1 r hr', mul_assoc]
  · have h1 : xpow R (fun i => ev N.n u i - 1) * combo N.n N.ndBasis G.e = ∑ k ∈ Finset.range N.ndBasis.length,
        G.e k • xpow R (fun i => ev N.n u i + ev N.n (N.ndBasis.getD k []) i - 1) := by
      rw [combo, Finset.mul_sum]
      refine Finset.sum_congr rfl (fun k hk => ?_)
      have hk := Finset.mem_range.1 hk
      obtain ⟨l, -, hb⟩ := hN.deg (N.ndBasis.getD k []) (by rw [getD_getElem _ _ _ hk]; exact List.getElem_mem hk)
      rw [mul_smul_comm, xpow_mul (fun i => by have := ev_pos hu.1 hpos i; omega) (ev_nonneg hb)]
      congr 2
      funext i
      simp only [Pi.add_apply]
      ring
    rw [h1]
    exact apply_rel _ _ _ _ _ (fun r k => c k r) (fun k hk => (hcc k hk).2) G.e

theorem monomialToBasisND_ok [Nontrivial R] [DecidableEq R] (hsolve : SolverOK solve) (hN : NDOk solve N)
    (htop : TopOK solve N.toDR) (hB : BasisOK solve N.toDR)
    (hbasis : N.ndBasis = (List.range (N.n + 1)).flatMap (ndBlock solve N.toDR))
    (hblk : ∀ i, i < N.n + 1 → NDBlockOK solve N.toDR i (ndBlock solve N.toDR i))
    {u : IVec} (hul : u.length = N.n + 1) (hpos : ∀ x ∈ u, 0 < x) (m : Nat) (hm : u.sum = m * N.d) :
    ∃ H, ∃ c : Nat → R, monomialToBasisND solve N u = .ok H ∧ H.len = N.basis.length ∧
      (∀ r, r < N.basis.length → H.e r = (poleFact N.toDR r : R) * c r) ∧
      xpow R (fun i => ev N.n u i - 1)
        - ∑ r ∈ Finset.range N.basis.length, c r • xpow R (ev N.n (N.basis.getD r [])) ∈ Ex (DRpoly N.toDR) N.d := by
  have hd := hN.dr.hd
  have hall : u.all (fun x => decide (0 < x)) = true := by
    rw [List.all_eq_true]; intro x hx; simpa using hpos x hx
  have hmod : sumVec u % (N.d : Int) = 0 := by rw [sumVec_eq_sum, hm]; simp
  have hdiv : sumVec u / (N.d : Int) = m := by
    rw [sumVec_eq_sum, hm]; exact Int.mul_ediv_cancel _ (by omega)
  have hsum : (N.n : Int) + 1 ≤ u.sum := by
    rw [← sum_ev hul]
    calc (N.n : Int) + 1 = ∑ i : Fin (N.n + 1), 1 := by simp
      _ ≤ _ := Finset.sum_le_sum (fun i _ => ev_pos hul hpos i)
  have hm1 : 1 ≤ m := by
    by_contra h
    have : m = 0 := by omega
    rw [hm, this] at hsum
    simp at hsum
    omega
  have hs : u.sum = (((m - 1) + 1 : Nat) : Int) * N.d := by rw [hm, Nat.sub_add_cancel hm1]
  obtain ⟨u', G', e1, a1, a2, a3, a4⟩ := mtbLoopND_ok hsolve hN (m - 1) u (CVec.unit (R := R) N.ndBasis.length 0) hul hpos hs rfl
  obtain ⟨M, eM, hr, hc, hrel⟩ := lastND_ok hsolve hN htop hB hbasis hblk a1 a2
  obtain ⟨H, c, eH, lH, vH, relH⟩ := hrel G' a3
  refine ⟨H, c, ?_, lH, vH, ?_⟩
  · have hs1 : sumVec u' = N.d := by rw [sumVec_eq_sum]; exact a1.2.2
    rw [monomialToBasisND, decide_eq_true hul, check_true, Res.bind_ok, hall, check_true, Res.bind_ok]
    rw [if_neg (by omega), hmod, decide_eq_true rfl, check_true, Res.bind_ok]
    rw [if_neg (by have := hN.head.1; omega), hdiv, show ((m : Int) - 1).toNat = m - 1 by omega, e1, Res.bind_ok]
    simp only
    rw [hs1, decide_eq_true rfl, check_true, Res.bind_ok, eM, Res.bind_ok, eH]
  · have h0 : ∀ i : Fin (N.n + 1), ev N.n (List.replicate (N.n + 1) 0) i = 0 := by
      intro i
      rw [ev, List.getD_eq_getElem?_getD, List.getElem?_replicate, if_pos i.isLt]
      rfl
    have h1 : combo N.n N.ndBasis (CVec.unit (R := R) N.ndBasis.length 0).e = 1 := by
      rw [combo_unit hN.head.1, hN.head.2, xpow_of_nonneg]
      · have : (Finsupp.equivFunOnFinite.symm fun i : Fin (N.n + 1) =>
            (ev N.n (List.replicate (N.n + 1) 0) i).toNat) = 0 := by
          ext i
          simp [h0]
        rw [this]; rfl
      · intro i
        rw [h0]
    rw [h1, mul_one] at a4
    have := Submodule.add_mem _ a4 relH
    rwa [sub_add_sub_cancel] at this

end Verif
