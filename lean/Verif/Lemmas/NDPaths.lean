import Verif.Lemmas.NDMono
import Verif.Lemmas.MonoPadic
import Verif.Model.NDPaths

/-!
The matrix of a path of non-degenerate reductions.
-/

namespace Verif

open Spec MvPolynomial

variable {R : Type} [CommRing R]

/-- A column of a product of matrices is the product with the column. -/
theorem mul_col {A B C : CMat R} (h : A.cols = B.rows) (e : A.mul B = .ok C) {k : Nat} (hk : k < B.cols) :
    ∃ H, A.mulVec ⟨B.rows, fun r => B.e r k⟩ = .ok H ∧ C.rows = A.rows ∧ C.cols = B.cols ∧
      ∀ r, r < A.rows → C.e r k = H.e r := by
  obtain ⟨C', e', h1, h2, h3⟩ := CMat.mul_ok A B h
  rw [e] at e'
  obtain rfl := Except.ok.inj e'
  obtain ⟨H, eH, lH, vH⟩ := mulVec_ok A ⟨B.rows, fun r => B.e r k⟩ h
  exact ⟨H, eH, h1, h2, fun r hr => by rw [h3 r k hr hk, vH r hr]⟩

variable {solve : Solver R} {N : ND R}

theorem isPathND_sum {n d : Nat} (vs : List IVec) : ∀ u : Fin (n + 1) → ℤ, IsPathND n d u vs →
    ∑ i, u i = ((vs.length + 1 : Nat) : Int) * d := by
  induction vs with
  | nil => intro u h; rw [show ∑ i, u i = d from h]; simp
  | cons v vs ih =>
    rintro u ⟨h1, h2, h3⟩
    have := ih _ h3
    rw [Finset.sum_congr rfl (fun i _ => Pi.sub_apply _ _ i), Finset.sum_sub_distrib, sum_ev_tuple h1] at this
    rw [List.length_cons]
    push_cast at this ⊢
    linarith

theorem pathLoopND_ok [DecidableEq R] (hsolve : SolverOK solve) (hN : NDOk solve N) (vs : List IVec) :
    ∀ (u : IVec) (M : CMat R), u.length = N.n + 1 → (∀ x ∈ u, 0 < x) → IsPathND N.n N.d (ev N.n u) vs →
      M.rows = N.ndBasis.length →
      ∃ u' M', pathLoopND solve N vs u M = .ok (u', M') ∧ IsTuple (N.n + 1) N.d u' ∧ (∀ x ∈ u', 0 < x) ∧
        M'.rows = N.ndBasis.length ∧ M'.cols = M.cols ∧
        ∀ k, k < M.cols → xpow R (fun i => ev N.n u i - 1) * combo N.n N.ndBasis (fun r => M.e r k)
          - xpow R (fun i => ev N.n u' i - 1) * combo N.n N.ndBasis (fun r => M'.e r k) ∈ Ex (DRpoly N.toDR) N.d := by
  induction vs with
  | nil =>
    intro u M h1 h2 h3 h4
    have h3' : ∑ i, ev N.n u i = N.d := h3
    rw [sum_ev h1] at h3'
    refine ⟨u, M, rfl, ⟨h1, fun x hx => le_of_lt (h2 x hx), h3'⟩, h2, h4, rfl, fun k _ => ?_⟩
    rw [sub_self]; exact Submodule.zero_mem _
  | cons v vs ih =>
    intro u M h1 h2 h3 h4
    obtain ⟨hv, hpos, hrest⟩ := h3
    have hlen : u.length = v.length := by rw [h1, hv.1]
    have ev1 := ev_sub (n := N.n) hlen
    have l1 : (List.zipWith (· - ·) u v).length = N.n + 1 := by rw [List.length_zipWith, hv.1, h1, min_self]
    have p1 : ∀ x ∈ List.zipWith (· - ·) u v, 0 < x := pos_of_ev l1 (fun i => by rw [ev1]; exact hpos i)
    rw [← ev1] at hrest
    have s1 := isPathND_sum vs _ hrest
    rw [sum_ev l1] at s1
    obtain ⟨Mr, eM, hr, hc, hstep⟩ := stepND_ok hsolve hN hv s1
    obtain ⟨M2, e2, r2, k2, -⟩ := CMat.mul_ok Mr M (by omega)
    obtain ⟨u', M', e3, a1, a2, a3, a4, a5⟩ := ih _ M2 l1 p1 hrest (by omega)
    refine ⟨u', M', ?_, a1, a2, a3, by omega, fun k hk => ?_⟩
    · rw [pathLoopND, subVec_ok hlen, Res.bind_ok, eM, Res.bind_ok, e2, Res.bind_ok, e3]
    · obtain ⟨H, eH, -, -, hH⟩ := mul_col (by omega) e2 hk
      obtain ⟨H', eH', lH', -⟩ := stepND_Ex hsolve hN l1 p1 hv s1 (G := ⟨M.rows, fun r => M.e r k⟩) h4
      obtain ⟨H2, q1, q2, q3, -⟩ := hstep ⟨M.rows, fun r => M.e r k⟩ h4
      obtain ⟨H3, t1, -, t3⟩ := stepND_Ex hsolve hN l1 p1 hv s1 (G := ⟨M.rows, fun r => M.e r k⟩) h4
      rw [q1] at t1
      obtain rfl := Except.ok.inj t1
      rw [eH] at q2
      obtain rfl := Except.ok.inj q2
      have h6 := a5 k (by omega)
      rw [combo_congr (G := fun r => M2.e r k) (G' := H.e) (fun r hr' => hH r (by omega))] at h6
      have e3 : (fun i => ev N.n (List.zipWith (· - ·) u v) i + ev N.n v i - 1) = fun i => ev N.n u i - 1 := by
        rw [ev1]; funext i; simp
      rw [e3] at t3
      have := Submodule.add_mem _ t3 h6
      rwa [sub_add_sub_cancel] at this

/-- What the matrix of a path says. -/
theorem pathMatrixND_ok [Nontrivial R] [DecidableEq R] (hsolve : SolverOK solve) (hN : NDOk solve N)
    (htop : TopOK solve N.toDR) (hB : BasisOK solve N.toDR)
    (hbasis : N.ndBasis = (List.range (N.n + 1)).flatMap (ndBlock solve N.toDR))
    (hblk : ∀ i, i < N.n + 1 → NDBlockOK solve N.toDR i (ndBlock solve N.toDR i))
    (u : IVec) (vs : List IVec) (hu : u.length = N.n + 1) (hpos : ∀ x ∈ u, 0 < x) (hp : IsPathND N.n N.d (ev N.n u) vs) :
    ∃ P, ∃ c : ℕ → ℕ → R, pathMatrixND solve N u vs = .ok P ∧ P.rows = N.basis.length ∧
      P.cols = N.ndBasis.length ∧
      (∀ r k, r < N.basis.length → k < N.ndBasis.length → P.e r k = (poleFact N.toDR r : R) * c r k) ∧
      ∀ k, k < N.ndBasis.length → xpow R (fun i => ev N.n u i + ev N.n (N.ndBasis.getD k []) i - 1)
        - ∑ r ∈ Finset.range N.basis.length, c r k • xpow R (ev N.n (N.basis.getD r []))
          ∈ Ex (DRpoly N.toDR) N.d := by
  obtain ⟨u', M1, e1, a1, a2, a3, a4, a5⟩ :=
    pathLoopND_ok hsolve hN vs u (CMat.one N.ndBasis.length) hu hpos hp rfl
  have a4 : M1.cols = N.ndBasis.length := a4
  obtain ⟨T, eT, hr, hc, hT⟩ := lastND_ok hsolve hN htop hB hbasis hblk a1 a2
  obtain ⟨P, eP, r2, k2, -⟩ := CMat.mul_ok T M1 (by omega)
  have hch : ∀ k, ∃ c : Nat → R, k < N.ndBasis.length →
      (∀ r, r < N.basis.length → P.e r k = (poleFact N.toDR r : R) * c r) ∧
      xpow R (fun i => ev N.n u i + ev N.n (N.ndBasis.getD k []) i - 1)
        - ∑ r ∈ Finset.range N.basis.length, c r • xpow R (ev N.n (N.basis.getD r [])) ∈ Ex (DRpoly N.toDR) N.d := by
    intro k
    by_cases hk : k < N.ndBasis.length
    swap
    · exact ⟨fun _ => 0, fun h => absurd h hk⟩
    obtain ⟨H, eH, -, -, hH⟩ := mul_col (by omega) eP (k := k) (by omega)
    obtain ⟨H', c, eH', lH', f', g'⟩ := hT ⟨M1.rows, fun r => M1.e r k⟩ a3
    rw [eH] at eH'
    obtain rfl := Except.ok.inj eH'
    refine ⟨c, fun _ => ⟨fun r hr' => by rw [hH r (by omega), f' r hr'], ?_⟩⟩
    have h1 := a5 k hk
    have h2 : combo N.n N.ndBasis (fun r => (CMat.one (R := R) N.ndBasis.length).e r k) =
        xpow R (ev N.n (N.ndBasis.getD k [])) := by
      rw [← combo_unit hk]
      apply combo_congr
      intro j hj
      simp only [CMat.one, CMat.mk', CVec.unit, CVec.mk', if_pos (And.intro hj hk), if_pos hj]
    obtain ⟨l, -, hb⟩ := hN.deg (N.ndBasis.getD k []) (by rw [getD_getElem _ _ _ hk]; exact List.getElem_mem hk)
    rw [h2, xpow_mul (fun i => by have := ev_pos hu hpos i; omega) (ev_nonneg hb)] at h1
    have e3 : (fun i => ev N.n u i - 1) + ev N.n (N.ndBasis.getD k []) =
        fun i => ev N.n u i + ev N.n (N.ndBasis.getD k []) i - 1 := by
      funext i; simp only [Pi.add_apply]; ring
    rw [e3] at h1
    have := Submodule.add_mem _ h1 g'
    rwa [sub_add_sub_cancel] at this
  choose c hcc using hch
  refine ⟨P, fun r k => c k r, ?_, by omega, by omega, fun r k hr' hk => (hcc k hk).1 r hr', fun k hk => (hcc k hk).2⟩
  rw [pathMatrixND, e1, Res.bind_ok]
  simp only
  rw [eT, Res.bind_ok, eP]

/-! ### The constructor with another solver -/

theorem initND_refine {s s' : Solver R} (h : ∀ T BU, s T = .ok BU → ∃ U, s' T = .ok (BU.1, U)) {p : ℕ}
    {f : MonMap R} {N : ND R} (hN : ND.init s p f = .ok N) : ND.init s' p f = .ok N := by
  have hJ : ∀ D l BU, solveND s D l = .ok BU → ∃ U, solveND s' D l = .ok (BU.1, U) := by
    intro D l BU e
    rw [solveND, Res.bind_eq_ok] at e
    obtain ⟨T, e1, e2⟩ := e
    obtain ⟨U, e3⟩ := h T BU e2
    exact ⟨U, by rw [solveND, e1]; exact e3⟩
  have hI : ∀ D r, initBasisND s D = .ok r → initBasisND s' D = .ok r := by
    intro D r e
    unfold initBasisND at e ⊢
    refine forRange_refine (fun i acc r e => ?_) _ _ _ e
    rw [Res.bind_eq_ok] at e
    obtain ⟨BU, e1, e2⟩ := e
    obtain ⟨U, e3⟩ := hJ _ _ _ e1
    show (solveND s' D _ >>= _) = _
    rw [e3]
    exact e2
  unfold ND.init at hN ⊢
  rw [Res.bind_eq_ok] at hN
  obtain ⟨D, eD, hN⟩ := hN
  rw [init_refine h eD, Res.bind_ok]
  rw [Res.bind_eq_ok] at hN
  obtain ⟨BU, e1, hN⟩ := hN
  obtain ⟨U, e1'⟩ := hJ _ _ _ e1
  rw [e1', Res.bind_ok]
  rw [Res.bind_eq_ok] at hN
  obtain ⟨u2, e2, hN⟩ := hN
  rw [e2, Res.bind_ok]
  rw [Res.bind_eq_ok] at hN
  obtain ⟨b, e3, hN⟩ := hN
  rw [hI _ _ e3, Res.bind_ok]
  exact hN

theorem initND_congr {s s' : Solver R} (h : ∀ T, (s T).map Prod.fst = (s' T).map Prod.fst) (p : ℕ)
    (f : MonMap R) : ND.init s p f = ND.init s' p f := by
  have hJ : ∀ D l, (solveND s D l).map Prod.fst = (solveND s' D l).map Prod.fst := by
    intro D l
    rw [solveND, solveND]
    cases matrixND D l with
    | error e => rfl
    | ok T => exact h T
  have hI : ∀ D, initBasisND s D = initBasisND s' D := by
    intro D
    unfold initBasisND
    congr 1
    funext i acc
    exact bind_fst (hJ D _) (fun B => do
      let L ← D.list ((i : Int) * D.d)
      check (decide (hilbertND D.d D.n (i * D.d) = B.length))
      let mons ← B.mapM (fun b => aget L b)
      pure (acc ++ mons))
  unfold ND.init
  rw [init_congr h]
  refine congrArg _ (funext fun D => ?_)
  rw [hI]
  exact bind_fst (hJ _ _) (fun B => do
    check (decide (B.length = 0))
    let basis ← initBasisND s' D
    check (decide (basis.length = D.d ^ D.n))
    pure ({ toDR := D, ndBasis := basis, ndDict := buildDict basis } : ND R))

end Verif
