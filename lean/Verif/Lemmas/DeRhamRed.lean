import Verif.Lemmas.DeRham

/-!
The reduction step of `de_Rham_local` keeps the cohomology class.
-/

namespace Verif

open Spec MvPolynomial

variable {R : Type} [CommRing R]

theorem toPoly_isHomogeneous {n d : Nat} (f : MonMap R) (h : ∀ e ∈ f, e.1.length = n + 1 ∧ NonNeg e.1)
    (hd : ∀ e ∈ f, deg e.1 = d) : (toPoly (n + 1) f).IsHomogeneous d := by
  induction f with
  | nil => exact isHomogeneous_zero _ _ _
  | cons e f ih =>
    rw [toPoly_cons]
    refine IsHomogeneous.add ?_ (ih (fun e h' => h e (by simp [h'])) (fun e h' => hd e (by simp [h'])))
    apply isHomogeneous_monomial
    have h1 := h e (by simp)
    have h2 := hd e (by simp)
    rw [Finsupp.degree_eq_sum]
    have : ((∑ i, expo (n + 1) e.1 i : ℕ) : ℤ) = d := by
      rw [← h2, deg, ← sum_ev h1.1]; push_cast
      exact Finset.sum_congr rfl (fun i _ => Int.toNat_of_nonneg (nonNeg_getD h1.2 i))
    exact_mod_cast this

theorem DRpoly_isHomogeneous {D : DR R} (hD : DROk D) : (DRpoly D).IsHomogeneous D.d :=
  toPoly_isHomogeneous D.f hD.f_wf.1 hD.f_hom

/-- The pair returned by `get_solve_J(l)` decomposes every monomial of degree `l`. -/
theorem solveJ_ok {solve : Solver R} (hsolve : SolverOK solve) {D : DR R} (hD : DROk D) (l : Int)
    (h0 : (D.d : Int) - 1 ≤ l) (h1 : l ≤ (D.n + 1) * D.d) :
    ∃ L S B U, IsTable D.n l L ∧ IsTable D.n (l - (D.d - 1)) S ∧ D.list l = .ok L ∧
      D.list (l - (D.d - 1)) = .ok S ∧ solveJ solve D l = .ok (B, U) ∧
      U.rows = (D.n + 1) * S.length + B.length ∧ U.cols = L.length ∧ B.Pairwise (· < ·) ∧
      (∀ b ∈ B, b < L.length) ∧
      ∀ k, k < L.length → xpow R (ev D.n (L.getD k []))
        = ∑ i : Fin (D.n + 1), combo D.n S (fun s => U.e (i.val * S.length + s) k)
              * pderiv i (DRpoly D)
          + ∑ b ∈ Finset.range B.length, U.e ((D.n + 1) * S.length + b) k •
              xpow R (ev D.n (L.getD (B.getD b 0) [])) := by
  have hd := hD.hd
  obtain ⟨L, S, T, hL, hS, eL, eS, eT, hTr, hTc, hT⟩ := matrixJ_ok hD l h0 h1
  obtain ⟨B, U, eU, hU⟩ := hsolve T
  have hl : ((l.toNat : Nat) : Int) = l := Int.toNat_of_nonneg (by omega)
  refine ⟨L, S, B, U, hL, hS, eL, eS, ?_, by rw [hU.rows, hTc], by rw [hU.cols, hTr], hU.sorted,
    by rw [← hTr]; exact hU.lt, ?_⟩
  · rw [solveJ, eT]; exact eU
  · intro k hk
    refine solves_decomp (l := l.toNat) (by rw [hl]; exact hL) (fun i => pderiv i (DRpoly D)) hTr hTc
      ?_ ?_ hU hk
    · intro i j hj
      have h2 : l.toNat = (l - (D.d - 1)).toNat + (D.d - 1) := by omega
      rw [h2]
      refine IsHomogeneous.mul ?_ (DRpoly_isHomogeneous hD).pderiv
      apply xpow_isHomogeneous
      rw [sum_ev_tuple (hS.tuple hj), Int.toNat_of_nonneg (by omega)]
    · intro r i j hr hj
      rw [hT r i j hr i.isLt hj, DRpoly, coeff_jac D.f hD.f_wf.1 i (hS.tuple hj).1 (hS.tuple hj).2.1
        (hL.tuple hr).1 (hL.tuple hr).2.1]

theorem redMatJ_ok {D : DR R} {top : CMat R} {listG listF listW : List IVec}
    (hG : IsTable D.n ((D.d : Int) * D.n - D.n) listG)
    (hF : IsTable D.n ((D.d : Int) * D.n - 2 * D.n) listF)
    (hW : IsTable D.n ((D.d : Int) * D.n - D.n + D.d - (D.n + 1)) listW)
    (eG : D.list ((D.d : Int) * D.n - D.n) = .ok listG)
    (eG' : D.dict ((D.d : Int) * D.n - D.n) = .ok (buildDict listG))
    (eF : D.list ((D.d : Int) * D.n - 2 * D.n) = .ok listF)
    (eW : D.dict ((D.d : Int) * D.n - D.n + D.d - (D.n + 1)) = .ok (buildDict listW))
    (htr : top.rows = (D.n + 1) * listF.length) (htc : top.cols = listW.length)
    {v : IVec} (hv : IsTuple (D.n + 1) D.d v) :
    ∃ col : Nat → Nat → Nat → R,
      (∀ k, k < listG.length →
        redColJ D top listG listF (buildDict listG) (buildDict listW) v k = .ok (col k)) ∧
      redMatJ D top v = .ok (fun i => CMat.mk' listG.length listG.length (fun r c => col c i r)) := by
  have hcol : ∀ k, ∃ c, k < listG.length →
      redColJ D top listG listF (buildDict listG) (buildDict listW) v k = .ok c := by
    intro k
    by_cases hk : k < listG.length
    · rcases redColJ_ok hG hF hW htr htc hv hk with ⟨-, h⟩ | ⟨cw, -, -, h⟩
      · exact ⟨_, fun _ => h⟩
      · exact ⟨_, fun _ => h⟩
    · exact ⟨0, fun h => absurd h hk⟩
  choose col hcol using hcol
  refine ⟨col, fun k => hcol k, ?_⟩
  have key := forRange_inv (n := listG.length) (s := ((fun _ _ _ => 0) : Nat → Nat → Nat → R))
    (f := fun k M => do
      let col ← redColJ D top listG listF (buildDict listG) (buildDict listW) v k
      pure (fun i r c => if c = k then col i r else M i r c))
    (fun k M => ∀ i r c, c < k → M i r c = col c i r) (fun i r c h => by omega) (by
      intro k M hk hM
      refine ⟨_, by simp only [hcol k hk, Res.bind_ok, Res.pure_eq]; rfl, ?_⟩
      intro i r c hc
      by_cases h : c = k
      · rw [if_pos h, h]
      · rw [if_neg h, hM i r c (by omega)])
  obtain ⟨M, eM, hM⟩ := key
  rw [redMatJ, eG, eG', eW, eF]
  simp only [Res.bind_ok]
  rw [eM, Res.bind_ok, Res.pure_eq]
  congr 1
  funext i
  rw [CMat.mk', CMat.mk']
  congr 1
  funext r c
  by_cases h : r < listG.length ∧ c < listG.length
  · rw [if_pos h, if_pos h, hM i r c h.2]
  · rw [if_neg h, if_neg h]

/-- `acc 0 r + Σ u_i acc (i+1) r`, as an additive map. -/
def evalHom (n : Nat) (u : IVec) (r : Nat) : (Nat → Nat → R) →+ R where
  toFun acc := acc 0 r + ∑ i ∈ Finset.range (n + 1), ((u.getD i 0 : Int) : R) * acc (i + 1) r
  map_zero' := by simp
  map_add' a b := by
    simp only [Pi.add_apply, mul_add, Finset.sum_add_distrib]
    ring

theorem evalHom_redTerm (listG listF : List IVec) (n : Nat) (F : Nat → R) (u : IVec) (r i s : Nat)
    (hi : i < n + 1) :
    evalHom n u r (redTerm listG listF n F i s) =
      if r = listG.idxOf (List.zipWith (· + ·) (listF.getD s []) (oneMinusE n i)) then
        (((listF.getD s []).getD i 0 + u.getD i 0 : Int) : R) * F (i * listF.length + s) else 0 := by
  change redTerm listG listF n F i s 0 r
    + ∑ i' ∈ Finset.range (n + 1), ((u.getD i' 0 : Int) : R) * redTerm listG listF n F i s (i' + 1) r = _
  simp only [redTerm]
  split
  · rw [Finset.sum_eq_single i]
    · simp; ring
    · intro j _ hj
      simp [hj]
    · intro h; exact absurd (Finset.mem_range.2 hi) h
  · simp

/-- `Σ_r (Σ_x [r = ρ x] c x) φ r = Σ_x c x φ (ρ x)`. -/
theorem sum_reindex {M : Type} [AddCommGroup M] [Module R M] (N a b : Nat) (ρ : Nat → Nat → Nat)
    (hρ : ∀ i s, i < a → s < b → ρ i s < N) (c : Nat → Nat → R) (φ : Nat → M) :
    ∑ r ∈ Finset.range N, (∑ i ∈ Finset.range a, ∑ s ∈ Finset.range b,
        if r = ρ i s then c i s else 0) • φ r
      = ∑ i ∈ Finset.range a, ∑ s ∈ Finset.range b, c i s • φ (ρ i s) := by
  simp only [Finset.sum_smul]
  rw [Finset.sum_comm]
  refine Finset.sum_congr rfl (fun i hi => ?_)
  rw [Finset.sum_comm]
  refine Finset.sum_congr rfl (fun s hs => ?_)
  rw [Finset.sum_eq_single (ρ i s)]
  · rw [if_pos rfl]
  · intro r _ hr
    rw [if_neg hr, zero_smul]
  · intro h
    exact absurd (Finset.mem_range.2 (hρ i s (Finset.mem_range.1 hi) (Finset.mem_range.1 hs))) h

theorem row_tuple {n d : Nat} {listF : List IVec}
    (hF : IsTable n ((d : Int) * n - 2 * n) listF) {i s : Nat} (hi : i < n + 1) (hs : s < listF.length) :
    IsTuple (n + 1) ((d : Int) * n - n) (List.zipWith (· + ·) (listF.getD s []) (oneMinusE n i)) ∧
    ∀ j : Fin (n + 1), ev n (List.zipWith (· + ·) (listF.getD s []) (oneMinusE n i)) j
      = ev n (listF.getD s []) j + 1 - (Pi.single ⟨i, hi⟩ 1 : Fin (n + 1) → ℤ) j := by
  have hst := hF.tuple hs
  have hol : (oneMinusE n i).length = n + 1 := by simp [oneMinusE]
  have hl2 : (listF.getD s []).length = (oneMinusE n i).length := by rw [hst.1, hol]
  have hev : ∀ j : Fin (n + 1), ev n (List.zipWith (· + ·) (listF.getD s []) (oneMinusE n i)) j
      = ev n (listF.getD s []) j + 1 - (Pi.single ⟨i, hi⟩ 1 : Fin (n + 1) → ℤ) j := by
    intro j
    rw [ev_add hl2, Pi.add_apply, oneMinusE_ev i hi]
    by_cases h : j.val = i
    · have : j = ⟨i, hi⟩ := Fin.ext h
      rw [if_pos h, this, Pi.single_eq_same]; ring
    · have : j ≠ ⟨i, hi⟩ := fun h' => h (by rw [h'])
      rw [if_neg h, Pi.single_eq_of_ne this]; ring
  refine ⟨tuple_of_ev (by rw [List.length_zipWith, hst.1, hol, min_self]) (fun j => ?_) ?_, hev⟩
  · rw [hev]
    have := ev_nonneg hst j
    by_cases h : j = ⟨i, hi⟩
    · rw [h, Pi.single_eq_same]; rw [h] at this; omega
    · rw [Pi.single_eq_of_ne h]; omega
  · rw [Finset.sum_congr rfl (fun j _ => hev j), Finset.sum_sub_distrib, Finset.sum_add_distrib,
      sum_ev_tuple hst, Finset.sum_pi_single']
    simp
    ring

/-- Everything the reduction functions read, in one place. -/
theorem top_ok {solve : Solver R} (hsolve : SolverOK solve) {D : DR R} (hD : DROk D)
    (htop : TopOK solve D) :
    ∃ listG listF listW U, IsTable D.n ((D.d : Int) * D.n - D.n) listG ∧
      IsTable D.n ((D.d : Int) * D.n - 2 * D.n) listF ∧
      IsTable D.n ((D.d : Int) * D.n - D.n + D.d - (D.n + 1)) listW ∧
      D.list ((D.d : Int) * D.n - D.n) = .ok listG ∧
      D.dict ((D.d : Int) * D.n - D.n) = .ok (buildDict listG) ∧
      D.list ((D.d : Int) * D.n - 2 * D.n) = .ok listF ∧
      D.dict ((D.d : Int) * D.n - D.n + D.d - (D.n + 1)) = .ok (buildDict listW) ∧
      solveJ solve D D.topLevel = .ok ([], U) ∧
      U.rows = (D.n + 1) * listF.length ∧ U.cols = listW.length ∧
      ∀ k, k < listW.length → xpow R (ev D.n (listW.getD k []))
        = ∑ i : Fin (D.n + 1), combo D.n listF (fun s => U.e (i.val * listF.length + s) k)
              * pderiv i (DRpoly D) := by
  have hd := hD.hd
  obtain ⟨U', hU'⟩ := htop
  have hnd : 0 ≤ (D.n : Int) * (D.d - 2) := by
    rcases Nat.eq_zero_or_pos D.n with h | h
    · rw [h]; simp
    · apply mul_nonneg <;> omega
  have ht : D.topLevel = (D.d : Int) * D.n - D.n + D.d - (D.n + 1) := by
    rw [DR.topLevel]; ring
  have ht2 : D.topLevel - (D.d - 1) = (D.d : Int) * D.n - 2 * D.n := by
    rw [DR.topLevel]; ring
  have hdn : (D.n : Int) * D.d ≥ 0 := by positivity
  obtain ⟨L, S, B, U, hL, hS, eL, eS, eU, hr, hc, -, -, hdec⟩ := solveJ_ok hsolve hD D.topLevel
    (by rw [DR.topLevel]; nlinarith) (by rw [DR.topLevel]; nlinarith)
  rw [ht2] at hS eS
  rw [ht] at hL eL
  rw [hU'] at eU
  cases eU
  obtain ⟨listG, hG, eG, eG'⟩ := D.list_ok hD ((D.d : Int) * D.n - D.n) (by nlinarith) (by nlinarith)
  obtain ⟨L', -, eL1, eL2⟩ := D.list_ok hD ((D.d : Int) * D.n - D.n + D.d - (D.n + 1))
    (by nlinarith) (by nlinarith)
  rw [eL] at eL1
  cases eL1
  refine ⟨listG, S, L, U', hG, hS, hL, eG, eG', eS, eL2, hU', ?_, hc, ?_⟩
  · simpa using hr
  · intro k hk
    have := hdec k hk
    simpa using this

omit [CommRing R] in
theorem checkUV_ok {D : DR R} {u v : IVec} (hu : u.length = D.n + 1) (hv : IsTuple (D.n + 1) D.d v)
    (huv : ∀ i, ev D.n u i = 0 ∨ 0 < ev D.n v i) : checkUV D u v = .ok () := by
  have h := forRange_inv (n := D.n + 1) (s := (0 : Int)) (f := fun i sum => do
    let ui ← aget u i
    let vi ← aget v i
    check (decide (ui = 0 ∨ 0 < vi))
    pure (sum + vi)) (fun i sum => sum = ∑ j ∈ Finset.range i, v.getD j 0) (by simp) (by
      intro i s hi hs
      have h1 : i < u.length := by omega
      have h2 : i < v.length := by rw [hv.1]; omega
      have h3 := huv ⟨i, hi⟩
      simp only [ev, getD_getElem _ _ _ h1, getD_getElem _ _ _ h2] at h3
      refine ⟨s + v[i], ?_, ?_⟩
      · simp only [aget_of_lt _ _ h1, aget_of_lt _ _ h2, Res.bind_ok, decide_eq_true h3, check_true,
          Res.pure_eq]
      · rw [Finset.sum_range_succ, hs, getD_getElem _ _ _ h2])
  obtain ⟨s, e, hs⟩ := h
  rw [checkUV, e, Res.bind_ok, hs]
  have : ∑ j ∈ Finset.range (D.n + 1), v.getD j 0 = D.d := by
    rw [← sum_ev_tuple hv, Finset.sum_range]
    rfl
  rw [this]
  simp

/-- The entries of the matrix for `(u, v)`, column by column: an exact relation for each monomial. -/
theorem getReductionMatrixJ_ok {solve : Solver R} (hsolve : SolverOK solve) {D : DR R} (hD : DROk D)
    (htop : TopOK solve D) {u v : IVec} (hu : u.length = D.n + 1) (hu0 : NonNeg u)
    (hv : IsTuple (D.n + 1) D.d v) (huv : ∀ i, ev D.n u i = 0 ∨ 0 < ev D.n v i) :
    ∃ listG M, D.list ((D.d : Int) * D.n - D.n) = .ok listG ∧
      IsTable D.n ((D.d : Int) * D.n - D.n) listG ∧
      getReductionMatrixJ solve D u v = .ok M ∧ M.rows = listG.length ∧ M.cols = listG.length ∧
      (∀ m : Nat, 1 ≤ m → u.sum + D.d * D.n - D.n = m * D.d → ∀ k, k < listG.length →
        xpow R (fun i => ev D.n u i + ev D.n v i + ev D.n (listG.getD k []) i - 1)
          - ∑ r ∈ Finset.range listG.length, M.e r k •
              xpow R (fun i => ev D.n u i + ev D.n (listG.getD r []) i - 1) ∈ Ex (DRpoly D) D.d) ∧
      (∀ r k, r < listG.length → k < listG.length → ¬ Admissible D.n listG (ev D.n u) r →
        M.e r k = 0) := by
  obtain ⟨listG, listF, listW, U, hG, hF, hW, eG, eG', eF, eW, eU, hr, hc, hdec⟩ :=
    top_ok hsolve hD htop
  obtain ⟨col, hcol, eM⟩ := redMatJ_ok hG hF hW eG eG' eF eW hr hc hv
  refine ⟨listG, _, eG, hG, by
    rw [getReductionMatrixJ, checkUV_ok hu hv huv, Res.bind_ok, eU, Res.bind_ok, eM, Res.bind_ok,
      Res.pure_eq], rfl, rfl, ?_⟩
  have hent : ∀ r k, r < listG.length → k < listG.length →
      (evalRed D.n (fun i => CMat.mk' listG.length listG.length (fun r c => col c i r)) u).e r k
        = evalHom D.n u r (col k) := by
    intro r k hr hk
    simp only [evalRed, CMat.mk', hr, hk, and_self, if_true, sumLoop_eq_sum]
    rfl
  have hcase : ∀ k, k < listG.length →
      ((∃ i, ev D.n (listG.getD k []) i + ev D.n v i ≤ 0) ∧ col k = 0) ∨
      ∃ cw, cw < listW.length ∧
        (∀ i, ev D.n (listW.getD cw []) i = ev D.n (listG.getD k []) i + ev D.n v i - 1) ∧
        col k = ∑ i ∈ Finset.range (D.n + 1), ∑ s ∈ Finset.range listF.length,
            redTerm listG listF D.n (fun x => U.e x cw) i s := by
    intro k hk
    have h1 := hcol k hk
    rcases redColJ_ok hG hF hW hr hc hv hk with ⟨h, h2⟩ | ⟨cw, h, h', h2⟩
    · rw [h1] at h2; exact Or.inl ⟨h, Except.ok.inj h2⟩
    · rw [h1] at h2; exact Or.inr ⟨cw, h, h', Except.ok.inj h2⟩
  have hent' : ∀ r k cw, r < listG.length → k < listG.length → 
      col k = ∑ i ∈ Finset.range (D.n + 1), ∑ s ∈ Finset.range listF.length,
            redTerm listG listF D.n (fun x => U.e x cw) i s →
      (evalRed D.n (fun i => CMat.mk' listG.length listG.length (fun r c => col c i r)) u).e r k
        = ∑ i ∈ Finset.range (D.n + 1), ∑ s ∈ Finset.range listF.length,
          if r = listG.idxOf (List.zipWith (· + ·) (listF.getD s []) (oneMinusE D.n i)) then
            (((listF.getD s []).getD i 0 + u.getD i 0 : Int) : R) * U.e (i * listF.length + s) cw
          else 0 := by
    intro r k cw hr hk h
    rw [hent r k hr hk, h, map_sum]
    refine Finset.sum_congr rfl (fun i hi => ?_)
    rw [map_sum]
    refine Finset.sum_congr rfl (fun s _ => ?_)
    exact evalHom_redTerm listG listF D.n (fun x => U.e x cw) u r i s (Finset.mem_range.1 hi)
  have hu' : ∀ i, 0 ≤ ev D.n u i := fun i => nonNeg_getD hu0 i
  constructor
  · intro m hm hdeg k hk
    rcases hcase k hk with ⟨⟨i, hi⟩, hcz⟩ | ⟨cw, hcw, hw, hck⟩
    · have h1 := ev_nonneg (hG.tuple hk) i
      have h2 := ev_nonneg hv i
      have h3 := huv i
      rw [xpow_of_neg i (by omega), zero_sub]
      rw [Finset.sum_eq_zero, neg_zero]
      · exact Submodule.zero_mem _
      · intro r hr
        rw [hent r k (Finset.mem_range.1 hr) hk, hcz, map_zero, zero_smul]
    · rw [Finset.sum_congr rfl (fun r hr => by
        rw [hent' r k cw (Finset.mem_range.1 hr) hk hck])]
      rw [sum_reindex (R := R) listG.length (D.n + 1) listF.length
        (fun i s => listG.idxOf (List.zipWith (· + ·) (listF.getD s []) (oneMinusE D.n i)))
        (fun i s hi hs => (hG.idx (row_tuple hF hi hs).1).1)
        (fun i s => (((listF.getD s []).getD i 0 + u.getD i 0 : Int) : R)
          * U.e (i * listF.length + s) cw)
        (fun r => xpow R (fun i => ev D.n u i + ev D.n (listG.getD r []) i - 1))]
      have e1 : (fun i => ev D.n u i + ev D.n v i + ev D.n (listG.getD k []) i - 1)
          = ev D.n u + ev D.n (listW.getD cw []) := by
        funext i
        rw [Pi.add_apply, hw]; ring
      rw [e1, ← xpow_mul hu' (fun i => ev_nonneg (hW.tuple hcw) i), hdec cw hcw, Finset.mul_sum,
        Finset.sum_range, ← Finset.sum_sub_distrib]
      refine Submodule.sum_mem _ (fun i _ => ?_)
      rw [combo, Finset.sum_mul, Finset.mul_sum, ← Finset.sum_sub_distrib]
      refine Submodule.sum_mem _ (fun s hs => ?_)
      have hs' := Finset.mem_range.1 hs
      have hrow := row_tuple hF i.isLt hs'
      have e2 : (fun j => ev D.n u j + ev D.n (listG.getD (listG.idxOf
            (List.zipWith (· + ·) (listF.getD s []) (oneMinusE D.n i))) []) j - 1)
          = (ev D.n u + ev D.n (listF.getD s [])) - Pi.single i 1 := by
        funext j
        rw [(hG.idx hrow.1).2.1, hrow.2 j, Pi.sub_apply, Pi.add_apply]
        simp only [Fin.eta]
        ring
      rw [e2]
      have e3 : xpow R (ev D.n u) * (U.e (i.val * listF.length + s) cw •
            xpow R (ev D.n (listF.getD s [])) * pderiv i (DRpoly D))
          - ((((listF.getD s []).getD i 0 + u.getD i 0 : Int) : R)
            * U.e (i.val * listF.length + s) cw) •
              xpow R ((ev D.n u + ev D.n (listF.getD s [])) - Pi.single i 1)
          = U.e (i.val * listF.length + s) cw •
            (xpow R (ev D.n u + ev D.n (listF.getD s [])) * pderiv i (DRpoly D)
              - (((ev D.n u + ev D.n (listF.getD s [])) i : ℤ) : R) •
                xpow R ((ev D.n u + ev D.n (listF.getD s [])) - Pi.single i 1)) := by
        rw [← xpow_mul hu' (fun i => ev_nonneg (hF.tuple hs') i), smul_sub, smul_smul]
        congr 1
        · rw [smul_mul_assoc, mul_smul_comm, mul_assoc]
        · congr 1
          rw [Pi.add_apply, mul_comm, ev, ev, add_comm (u.getD i 0)]
      rw [e3]
      refine Submodule.smul_mem _ _ (Ex_mem _ _ m i _ hm
        (fun j => add_nonneg (hu' j) (ev_nonneg (hF.tuple hs') j)) ?_)
      rw [Finset.sum_congr rfl (fun j _ => Pi.add_apply _ _ j), Finset.sum_add_distrib, sum_ev hu,
        sum_ev_tuple (hF.tuple hs'), ← hdeg]
      ring
  · intro r k hr hk hadm
    rcases hcase k hk with ⟨-, hcz⟩ | ⟨cw, hcw, hw, hck⟩
    · rw [hent r k hr hk, hcz, map_zero]
    · rw [hent' r k cw hr hk hck]
      refine Finset.sum_eq_zero (fun i hi => Finset.sum_eq_zero (fun s hs => ?_))
      have hi' := Finset.mem_range.1 hi
      have hs' := Finset.mem_range.1 hs
      have hrow := row_tuple hF hi' hs'
      split
      · rename_i h
        rw [Admissible] at hadm
        push Not at hadm
        obtain ⟨j, hj⟩ := hadm
        rw [h, (hG.idx hrow.1).2.1, hrow.2 j] at hj
        have h1 := hu' j
        have h2 := ev_nonneg (hF.tuple hs') j
        have hji : j = ⟨i, hi'⟩ := by
          by_contra hne
          rw [Pi.single_eq_of_ne hne] at hj
          omega
        subst hji
        rw [Pi.single_eq_same] at hj
        simp only [ev] at hj h1 h2
        have h3 : (listF.getD s []).getD i 0 + u.getD i 0 = 0 := by omega
        rw [h3]; simp
      · rfl

/-- `reduce_vector_J` is multiplication by the matrix of `get_reduction_matrix_J`. -/
theorem reduceVectorJ_eq (solve : Solver R) (D : DR R) (u v : IVec) (G : CVec R) :
    reduceVectorJ solve D u v G = (getReductionMatrixJ solve D u v >>= fun M => M.mulVec G) := by
  rw [reduceVectorJ, getReductionMatrixJ]
  cases checkUV D u v with
  | error e => rfl
  | ok _ =>
    simp only [Res.bind_ok]
    cases solveJ solve D D.topLevel with
    | error e => rfl
    | ok top =>
      simp only [Res.bind_ok]
      cases hMs : redMatJ D top.2 v with
      | error e => rfl
      | ok Ms =>
        obtain ⟨l, M, hM⟩ : ∃ (l : Nat) (M : Nat → Nat → Nat → R), Ms = fun i => CMat.mk' l l (M i) := by
          rw [redMatJ] at hMs
          simp only [Res.bind_eq_ok, Res.pure_eq] at hMs
          obtain ⟨L, -, -, -, -, -, -, -, M, -, h⟩ := hMs
          exact ⟨_, M, (Except.ok.inj h).symm⟩
        subst hM
        simp only [Res.bind_ok]
        rw [Res.pure_eq, Res.bind_ok]
        by_cases hl : l = G.len
        · have h1 : ∀ i, (CMat.mk' l l (M i)).mulVec G
              = .ok (CVec.mk' l (fun r => sumLoop l (fun k => (CMat.mk' l l (M i)).e r k * G.e k))) := by
            intro i
            rw [CMat.mulVec, if_pos (show (CMat.mk' l l (M i)).cols = G.len from hl)]
            rfl
          rw [h1, Res.bind_ok]
          obtain ⟨s, e, hs1, hs2, hs3⟩ := forRange_inv (n := D.n + 1)
            (s := CVec.mk' l (fun r => sumLoop l (fun k => (CMat.mk' l l (M 0)).e r k * G.e k)))
            (f := fun i res => do
              let Gi ← (CMat.mk' l l (M (i + 1))).mulVec G
              if Gi.len = res.len then
                pure (CVec.mk' res.len (fun r => res.e r + ((u.getD i 0 : Int) : R) * Gi.e r))
              else .error .abort)
            (fun i res => res.len = l ∧ (∀ r, l ≤ r → res.e r = 0) ∧ ∀ r, r < l → res.e r =
              ∑ k ∈ Finset.range l, (CMat.mk' l l (M 0)).e r k * G.e k +
              ∑ j ∈ Finset.range i, ((u.getD j 0 : Int) : R) *
                ∑ k ∈ Finset.range l, (CMat.mk' l l (M (j + 1))).e r k * G.e k)
            (by
              refine ⟨rfl, fun r hr => ?_, fun r hr => ?_⟩
              · rw [CVec.mk']; exact if_neg (by omega)
              · simp only [CVec.mk', if_pos hr, sumLoop_eq_sum]; simp)
            (by
              rintro i res hi ⟨r1, r2, r3⟩
              refine ⟨_, by rw [h1]; simp only [Res.bind_ok]; rw [if_pos (by rw [r1]; rfl)]; rfl, ?_⟩
              refine ⟨r1, fun r hr => ?_, fun r hr => ?_⟩
              · rw [CVec.mk']; exact if_neg (by omega)
              · rw [CVec.mk']
                simp only [r1, if_pos hr, r3 r hr, Finset.sum_range_succ, CVec.mk', sumLoop_eq_sum]
                ring)
          rw [e]
          have hc : (evalRed D.n (fun i => CMat.mk' l l (M i)) u).cols = G.len := hl
          rw [CMat.mulVec, if_pos hc]
          congr 1
          ext r
          · exact hs1
          · by_cases hr : r < l
            · rw [hs3 r hr, CVec.mk']
              have : r < (evalRed D.n (fun i => CMat.mk' l l (M i)) u).rows := hr
              simp only [this, if_true, sumLoop_eq_sum]
              simp only [Finset.mul_sum]
              rw [Finset.sum_comm, ← Finset.sum_add_distrib]
              refine Finset.sum_congr rfl (fun k hk => ?_)
              have hk' : k < l := Finset.mem_range.1 hk
              have he : (evalRed D.n (fun i => CMat.mk' l l (M i)) u).e r k
                  = (CMat.mk' l l (M 0)).e r k + ∑ j ∈ Finset.range (D.n + 1),
                    ((u.getD j 0 : Int) : R) * (CMat.mk' l l (M (j + 1))).e r k := by
                rw [evalRed, CMat.mk']
                simp only [sumLoop_eq_sum]
                exact if_pos ⟨hr, hk'⟩
              rw [he, add_mul, Finset.sum_mul]
              simp only [mul_assoc]
            · rw [hs2 r (by omega), CVec.mk']
              exact (if_neg hr).symm
        · have h1 : (CMat.mk' l l (M 0)).mulVec G = .error .abort := by
            rw [CMat.mulVec]; exact if_neg hl
          have h2 : (evalRed D.n (fun i => CMat.mk' l l (M i)) u).mulVec G = .error .abort := by
            rw [CMat.mulVec]; exact if_neg hl
          rw [h1, h2]; rfl

end Verif
