import Verif.Lemmas.BasisIndep
import Verif.Spec.Paths

/-!
Independence of the cohomology basis, and of the reduction path.
-/

namespace Verif

open Spec MvPolynomial

section generic

variable {R : Type} [CommRing R]

/-- A power of every variable is in the Jacobian ideal. -/
theorem vars_in_J {solve : Solver R} (hsolve : SolverOK solve) {D : DR R} (hD : DROk D)
    (htop : TopOK solve D) :
    ∃ M, ∀ i, X i ^ M ∈ Ideal.span (Set.range (fun i => pderiv i (DRpoly D))) := by
  obtain ⟨listG, listF, listW, U, -, -, hW, -, -, -, -, -, -, -, hdec⟩ := top_ok hsolve hD htop
  have hd := hD.hd
  have h0 : (0 : ℤ) ≤ (D.d : Int) * D.n - D.n + D.d - (D.n + 1) := by nlinarith
  obtain ⟨M, hM⟩ : ∃ M : ℕ, (M : ℤ) = (D.d : Int) * D.n - D.n + D.d - (D.n + 1) :=
    ⟨_, Int.toNat_of_nonneg h0⟩
  refine ⟨M, fun i => ?_⟩
  obtain ⟨t, htl, ht⟩ := exists_ev (fun j : Fin (D.n + 1) => if j = i then (M : ℤ) else 0)
  have htup : IsTuple (D.n + 1) ((D.d : Int) * D.n - D.n + D.d - (D.n + 1)) t := by
    refine tuple_of_ev htl ?_ ?_
    · intro j; rw [ht]; beta_reduce; split <;> omega
    · rw [ht, Finset.sum_ite_eq' Finset.univ i, if_pos (Finset.mem_univ i), hM]
  obtain ⟨k, hk, hkt, -⟩ := hW.exists_index htup
  have e : (X i : MvPolynomial (Fin (D.n + 1)) R) ^ M = xpow R (ev D.n (listW.getD k [])) := by
    rw [hkt, ht, xpow_of_nonneg (a := fun j => if j = i then (M : ℤ) else 0)
      (fun j => by beta_reduce; split <;> omega), X_pow_eq_monomial]
    refine congrArg (fun s => monomial s (1 : R)) ?_
    refine Finsupp.ext (fun j => ?_)
    by_cases hj : j = i
    · subst hj; simp
    · simp [hj, Ne.symm hj]
  rw [e, hdec k hk]
  exact Ideal.sum_mem _ (fun i _ => Ideal.mul_mem_left _ _ (Ideal.subset_span ⟨i, rfl⟩))

end generic

section padic

variable {p N : ℕ} [Fact p.Prime]

theorem padicSolver_ok {la : LinAlg (ZMod p)} (hla : LinAlgOK la) (flint : Bool) {precision : ℕ}
    (hprec : N ≤ precision) : SolverOK (padicSolver p N la flint precision) := by
  intro T
  obtain ⟨B, U, e, h, -⟩ := solveSystemPadic_ok la hla flint T precision hprec
  exact ⟨B, U, e, h⟩

/-- Independence in one degree, for the object. -/
theorem level_indep (hN : 1 ≤ N) {la : LinAlg (ZMod p)} (hla : LinAlgOK la) {flint : Bool} {precision : ℕ}
    (hprec : N ≤ precision) {D : DR (ZMod (p ^ N))} (hD : DROk D)
    (htop : TopOK (padicSolver p N la flint precision) D) {l : ℕ} (hl : l ≤ (D.n + 1) * D.d)
    {L : List IVec} {B : List ℕ} {U : CMat (ZMod (p ^ N))} (eL : D.list l = .ok L)
    (eU : solveJ (padicSolver p N la flint precision) D l = .ok (B, U)) (c : ℕ → ZMod (p ^ N))
    (hmem : blockSum D.n L B c ∈ Ideal.span (Set.range (fun i => pderiv i (DRpoly D)))) :
    ∀ r, r < B.length → c r = 0 := by
  obtain ⟨M, hM⟩ := vars_in_J (padicSolver_ok hla flint hprec) hD htop
  have hd := hD.hd
  have hl' : (l : ℤ) ≤ (D.n + 1) * D.d := by exact_mod_cast hl
  have hhom : ∀ i, (pderiv i (DRpoly D)).IsHomogeneous (D.d - 1) :=
    fun i => (DRpoly_isHomogeneous hD).pderiv
  obtain ⟨L', hLt, B', U', e1, e2, hlt⟩ : ∃ L', IsTable D.n l L' ∧ ∃ B' U', D.list l = .ok L' ∧
      solveJ (padicSolver p N la flint precision) D l = .ok (B', U') ∧ ∀ b ∈ B', b < L'.length := by
    obtain ⟨L', B', U', h1, h2, h3, -, h4⟩ :=
      solveJ_shape (padicSolver_ok hla flint hprec) hD (l : ℤ) (by omega) hl'
    exact ⟨L', h1, B', U', h2, h3, h4⟩
  rw [eL] at e1
  cases e1
  rw [eU] at e2
  have hB : B = B' := congrArg Prod.fst (Except.ok.inj e2)
  rw [← hB] at hlt
  by_cases hs : (l : ℤ) < D.d - 1
  · obtain ⟨L1, -, h1, h2⟩ := matrixJ_small hD (l : ℤ) (by omega) hs
    rw [eL] at h1
    cases h1
    rw [solveJ, h2] at eU
    refine block_indep hN (k := D.d - 1) (S := []) hLt (Or.inr ⟨by omega, rfl⟩) hhom hM
      (T := CMat.mk' L.length 0 (fun _ _ => 0)) rfl rfl ?_ hla (flint := flint) hprec eU hlt c hmem
    intro r i j _ hj
    simp at hj
  · obtain ⟨L1, S, T, -, hS, h1, -, eT, hr, hc, hT⟩ := matrixJ_ok hD (l : ℤ) (by omega) hl'
    rw [eL] at h1
    cases h1
    rw [solveJ, eT] at eU
    have hk : (((D.d - 1 : ℕ)) : ℤ) = D.d - 1 := by rw [Nat.cast_sub (by omega)]; rfl
    refine block_indep hN (k := D.d - 1) (S := S) hLt (Or.inl ⟨by omega, by rw [hk]; exact hS⟩) hhom hM
      hr hc ?_ hla (flint := flint) hprec eU hlt c hmem
    intro r i j hr' hj
    rw [hT r i j hr' i.isLt hj, DRpoly, coeff_jac D.f hD.f_wf.1 i (hS.tuple hj).1 (hS.tuple hj).2.1
        (hLt.tuple hr').1 (hLt.tuple hr').2.1]

theorem degree_expo {n : ℕ} {l : ℕ} {t : IVec} (h : IsTuple (n + 1) l t) : (expo (n + 1) t).degree = l := by
  have := sum_ev_tuple h
  have e2 : ((∑ i, expo (n + 1) t i : ℕ) : ℤ) = l := by
    rw [← this]; push_cast
    refine Finset.sum_congr rfl (fun i _ => ?_)
    rw [expo_apply, ev]
    exact Int.toNat_of_nonneg (ev_nonneg h i)
  rw [Finsupp.degree_eq_sum]; exact_mod_cast e2

/-- The cohomology basis is independent modulo the relations. -/
theorem basis_indep (hN : 1 ≤ N) {la : LinAlg (ZMod p)} (hla : LinAlgOK la) {flint : Bool} {precision : ℕ}
    (hprec : N ≤ precision) {q : ℕ} {f : MonMap (ZMod (p ^ N))} {D : DR (ZMod (p ^ N))}
    (hI : InitOK (padicSolver p N la flint precision) q f D) (c : ℕ → ZMod (p ^ N))
    (h : ∑ r ∈ Finset.range D.basis.length, c r • xpow (ZMod (p ^ N)) (ev D.n (D.basis.getD r []))
      ∈ Ex (DRpoly D) D.d) :
    ∀ r, r < D.basis.length → c r = 0 := by
  have hD := hI.ok
  have hd := hD.hd
  obtain ⟨M, hM⟩ := vars_in_J (padicSolver_ok hla flint hprec) hD hI.top
  have hmem : ∀ r, r < D.basis.length → D.basis.getD r [] ∈ D.basis := by
    intro r hr; rw [getD_getElem _ _ _ hr]; exact List.getElem_mem hr
  have hnn : ∀ t ∈ D.basis, t.length = D.n + 1 ∧ NonNeg t := by
    intro t ht
    obtain ⟨k, -, -, h3⟩ := hI.basis.pole t ht
    exact ⟨h3.1, h3.2.1⟩
  have hcoef : ∀ r, r < D.basis.length → ∀ a, coeff a (xpow (ZMod (p ^ N)) (ev D.n (D.basis.getD r [])))
      = if expo (D.n + 1) (D.basis.getD r []) = a then 1 else 0 := by
    intro r hr a
    rw [xpow_ev (hnn _ (hmem r hr)).2, coeff_monomial]
  have hz : ∑ r ∈ Finset.range D.basis.length, c r • xpow (ZMod (p ^ N)) (ev D.n (D.basis.getD r [])) = 0 := by
    refine Ex_eq_zero (DRpoly_isHomogeneous hD) (by omega) hM
      (fun w => ∀ a, coeff a w ≠ 0 → ∃ t ∈ D.basis, a = expo (D.n + 1) t) ?_ ?_ ?_ h
    · intro w hw e a ha
      rw [coeff_homogeneousComponent] at ha
      split at ha
      · exact hw a ha
      · exact absurd rfl ha
    · intro e w hw hhom hJ
      by_contra hne
      obtain ⟨a, ha⟩ : ∃ a, coeff a w ≠ 0 := by
        by_contra hall
        push Not at hall
        exact hne (MvPolynomial.ext _ _ (fun a => by rw [hall a, coeff_zero]))
      obtain ⟨t, ht, rfl⟩ := hw a ha
      -- the block of `t`
      have hblk : ∀ t ∈ D.basis, ∃ i, i < D.n ∧ t ∈ basisBlock (padicSolver p N la flint precision) D i := by
        intro t ht
        rw [hI.blocks, List.mem_flatMap] at ht
        obtain ⟨i, hi, h1⟩ := ht
        exact ⟨i, List.mem_range.1 hi, h1⟩
      have hdeg : ∀ t ∈ D.basis, ∀ i, i < D.n → t ∈ basisBlock (padicSolver p N la flint precision) D i →
          coeff (expo (D.n + 1) t) w ≠ 0 → (e : ℤ) = ((i : Int) + 1) * D.d - (D.n + 1) := by
        intro t ht i hi hti hc
        have htup := (hI.block i hi).tuple t hti
        have hd1 : (expo (D.n + 1) t).degree = e := hhom.degree_eq_sum_deg_support (mem_support_iff.2 hc) |>.symm
        have hlev0 : (0 : Int) ≤ ((i : Int) + 1) * D.d - (D.n + 1) := by nlinarith
        obtain ⟨l, hl⟩ : ∃ l : ℕ, (l : ℤ) = ((i : Int) + 1) * D.d - (D.n + 1) := ⟨_, Int.toNat_of_nonneg hlev0⟩
        rw [← hl] at htup ⊢
        rw [← hd1, degree_expo htup]
      obtain ⟨i, hi, hti⟩ := hblk t ht
      have he := hdeg t ht i hi hti ha
      have hlev1 : (e : ℤ) ≤ (D.n + 1) * D.d := by
        rw [he]
        have : ((i : Int) + 1) * D.d ≤ (D.n + 1) * D.d := by
          apply mul_le_mul_of_nonneg_right <;> omega
        omega
      obtain ⟨L, B, U, hL, eL, eU, hsort, hlt⟩ :=
        solveJ_shape (padicSolver_ok hla flint hprec) hD (e : ℤ) (by omega) hlev1
      have hnd : B.Nodup := hsort.imp (fun h => Nat.ne_of_lt h)
      have hbb : basisBlock (padicSolver p N la flint precision) D i = B.map (fun b => L.getD b []) := by
        rw [basisBlock, ← he, eU, eL]
      -- every monomial of `w` is in the block
      have hin : ∀ a, a < L.length → coeff (expo (D.n + 1) (L.getD a [])) w ≠ 0 → a ∈ B := by
        intro a haL hc
        obtain ⟨t', ht', et⟩ := hw _ hc
        have ett : L.getD a [] = t' := expo_inj (hL.tuple haL).1 (hnn t' ht').1 (hL.tuple haL).2.1 (hnn t' ht').2 et
        obtain ⟨i', hi', hti'⟩ := hblk t' ht'
        rw [ett] at hc
        have he' := hdeg t' ht' i' hi' hti' hc
        have hii : i' = i := by
          rw [he] at he'
          have h1 : ((i : Int) + 1) * D.d = (i' + 1) * D.d := by omega
          have := mul_right_cancel₀ (show (D.d : ℤ) ≠ 0 by omega) h1
          omega
        rw [hii, hbb] at hti'
        obtain ⟨b, hb, e⟩ := List.mem_map.1 hti'
        rw [← ett] at e
        rw [← hL.getD_inj (hlt b hb) haL e]; exact hb
      have hwB : w = blockSum D.n L B (fun k => coeff (expo (D.n + 1) (L.getD (B.getD k 0) [])) w) := by
        have hbh : (blockSum D.n L B (fun k => coeff (expo (D.n + 1) (L.getD (B.getD k 0) [])) w)).IsHomogeneous e := by
          apply IsHomogeneous.sum
          intro k hk
          have hb := hlt _ (bgetD_mem (Finset.mem_range.1 hk))
          rw [smul_eq_C_mul]
          have := (isHomogeneous_C (Fin (D.n + 1)) (coeff (expo (D.n + 1) (L.getD (B.getD k 0) [])) w)).mul
            (xpow_isHomogeneous (R := ZMod (p ^ N)) (ev D.n (L.getD (B.getD k 0) [])) e
              (sum_ev_tuple (hL.tuple hb)))
          rwa [zero_add] at this
        rw [← combo_coeff hL hbh]
        conv_lhs => rw [← combo_coeff hL hhom]
        apply combo_congr
        intro a haL
        rw [coeff_blockSum hL hlt _ haL]
        by_cases haB : a ∈ B
        · obtain ⟨k, hk, hka⟩ := List.mem_iff_getElem.1 haB
          rw [Finset.sum_eq_single k]
          · rw [getD_getElem _ _ _ hk, hka, if_pos rfl]
          · intro j hj hne
            apply if_neg
            have hj' := Finset.mem_range.1 hj
            rw [getD_getElem _ _ _ hj', ← hka]
            intro e
            exact hne ((hnd.getElem_inj_iff.1 e).symm)
          · intro hh; exact absurd (Finset.mem_range.2 hk) hh
        · have h0 : coeff (expo (D.n + 1) (L.getD a [])) w = 0 := by
            by_contra hh; exact haB (hin a haL hh)
          rw [h0]
          symm
          apply Finset.sum_eq_zero
          intro k hk
          apply if_neg
          intro e
          exact haB (e ▸ bgetD_mem (Finset.mem_range.1 hk))
      have hzero := level_indep hN hla hprec hD hI.top (by exact_mod_cast hlev1) eL eU
        (fun k => coeff (expo (D.n + 1) (L.getD (B.getD k 0) [])) w) (by rw [← hwB]; exact hJ)
      apply hne
      rw [hwB, blockSum]
      exact Finset.sum_eq_zero (fun k hk => by rw [hzero k (Finset.mem_range.1 hk), zero_smul])
    · intro a ha
      rw [coeff_sum] at ha
      obtain ⟨r, hr, hra⟩ := Finset.exists_ne_zero_of_sum_ne_zero ha
      have hr' := Finset.mem_range.1 hr
      rw [coeff_smul, hcoef r hr'] at hra
      split at hra
      · rename_i he
        exact ⟨_, hmem r hr', he.symm⟩
      · simp at hra
  intro r hr
  have := congrArg (coeff (expo (D.n + 1) (D.basis.getD r []))) hz
  rw [coeff_sum, coeff_zero, Finset.sum_eq_single r] at this
  · rw [coeff_smul, hcoef r hr, if_pos rfl, smul_eq_mul, mul_one] at this
    exact this
  · intro j hj hne
    have hj' := Finset.mem_range.1 hj
    rw [coeff_smul, hcoef j hj', if_neg, smul_zero]
    intro e
    have e2 := expo_inj (hnn _ (hmem j hj')).1 (hnn _ (hmem r hr)).1 (hnn _ (hmem j hj')).2
      (hnn _ (hmem r hr)).2 e
    rw [getD_getElem _ _ _ hj', getD_getElem _ _ _ hr] at e2
    exact hne (hI.basis.nodup.getElem_inj_iff.1 e2)
  · intro hh; exact absurd (Finset.mem_range.2 hr) hh

end padic

section path

variable {R : Type} [CommRing R]

theorem CMat.mul_ok (A B : CMat R) (h : A.cols = B.rows) :
    ∃ C, CMat.mul A B = .ok C ∧ C.rows = A.rows ∧ C.cols = B.cols ∧
      ∀ r k, r < A.rows → k < B.cols → C.e r k = ∑ j ∈ Finset.range A.cols, A.e r j * B.e j k := by
  refine ⟨CMat.mk' A.rows B.cols (fun i j => sumLoop A.cols (fun k => A.e i k * B.e k j)),
    by rw [CMat.mul, if_pos h], rfl, rfl, fun r k hr hk => ?_⟩
  simp only [CMat.mk', if_pos (And.intro hr hk), sumLoop_eq_sum]

theorem pathLoopJ_ok {solve : Solver R} (hsolve : SolverOK solve) {D : DR R} (hD : DROk D)
    (htop : TopOK solve D) (hn : 1 ≤ D.n) {listG : List IVec}
    (eG : D.list ((D.d : Int) * D.n - D.n) = .ok listG) (vs : List IVec) :
    ∀ (u : IVec) (M : CMat R), u.length = D.n + 1 → NonNeg u → IsPath D.n D.d (ev D.n u) vs →
      M.rows = listG.length →
      ∃ u' M', pathLoopJ solve D vs u M = .ok (u', M') ∧ u'.length = D.n + 1 ∧ NonNeg u' ∧
        u'.sum = D.n ∧ u.sum = vs.length * D.d + D.n ∧ M'.rows = listG.length ∧ M'.cols = M.cols ∧
        ∀ k, k < M.cols → family D.n listG (ev D.n u) (fun r => M.e r k)
          - family D.n listG (ev D.n u') (fun r => M'.e r k) ∈ Ex (DRpoly D) D.d := by
  induction vs with
  | nil =>
    intro u M h1 h2 h3 h4
    have h3' : ∑ i, ev D.n u i = D.n := h3
    rw [sum_ev h1] at h3'
    refine ⟨u, M, rfl, h1, h2, h3', by rw [h3']; simp, h4, rfl, fun k _ => ?_⟩
    rw [sub_self]; exact Submodule.zero_mem _
  | cons v vs ih =>
    intro u M h1 h2 h3 h4
    obtain ⟨hv, hle, hpos, hrest⟩ := h3
    have hlen : u.length = v.length := by rw [h1, hv.1]
    have e1 := subVec_ok hlen
    have ev1 := ev_sub (n := D.n) hlen
    have l1 : (List.zipWith (· - ·) u v).length = D.n + 1 := by
      rw [List.length_zipWith, hv.1, h1, min_self]
    have n1 : NonNeg (List.zipWith (· - ·) u v) := nonNeg_of_ev l1 (fun i => by
      rw [ev1]; have := hle i; simp only [Pi.sub_apply]; omega)
    have s1 : (List.zipWith (· - ·) u v).sum = u.sum - D.d := by
      rw [← sum_ev l1, ev1, Finset.sum_congr rfl (fun i _ => Pi.sub_apply _ _ i),
          Finset.sum_sub_distrib, sum_ev h1, sum_ev_tuple hv]
    have c1 : ∀ i, ev D.n (List.zipWith (· - ·) u v) i = 0 ∨ 0 < ev D.n v i := by
      intro i
      rw [ev1]
      rcases lt_or_ge 0 (ev D.n u i) with h | h
      · exact Or.inr (hpos i h)
      · left
        have a1 := hle i
        have a2 := ev_nonneg hv i
        simp only [Pi.sub_apply]; omega
    rw [← ev1] at hrest
    obtain ⟨L, Mr, eL, -, eM, hr, hc, hrel, -⟩ := getReductionMatrixJ_ok hsolve hD htop l1 n1 hv c1
    rw [eG] at eL
    cases eL
    obtain ⟨M2, e2, r2, k2, hM2⟩ := CMat.mul_ok Mr M (by omega)
    obtain ⟨u', M', e3, a1, a2, a3, a3', a4, a5, a6⟩ := ih _ M2 l1 n1 hrest (by omega)
    have hsum : u.sum = vs.length * D.d + D.n + D.d := by omega
    refine ⟨u', M', ?_, a1, a2, a3, ?_, a4, by omega, ?_⟩
    · rw [pathLoopJ, e1, Res.bind_ok, eM, Res.bind_ok, e2, Res.bind_ok, e3]
    · rw [hsum, List.length_cons]; push_cast; ring
    · intro k hk
      have hdeg : (List.zipWith (· - ·) u v).sum + D.d * D.n - D.n = ((vs.length + D.n : ℕ) : ℤ) * D.d := by
        rw [s1, hsum]; push_cast; ring
      have h5 := apply_rel (Ex (DRpoly D) D.d) listG.length listG.length _ _ _
        (hrel (vs.length + D.n) (by omega) hdeg) (fun r => M.e r k)
      have h6 := a6 k (by omega)
      have e4 : family D.n listG (ev D.n (List.zipWith (· - ·) u v)) (fun r => M2.e r k)
          = family D.n listG (ev D.n (List.zipWith (· - ·) u v))
            (fun r => ∑ j ∈ Finset.range listG.length, Mr.e r j * M.e j k) :=
        family_congr (fun r hr' => by rw [hM2 r k (by omega) hk, hc])
      have e5 : family D.n listG (ev D.n u) (fun r => M.e r k)
          = family D.n listG (fun i => ev D.n (List.zipWith (· - ·) u v) i + ev D.n v i) (fun r => M.e r k) := by
        congr 1
        funext i
        rw [ev1]; simp
      rw [e4] at h6
      rw [e5]
      have := Submodule.add_mem _ h5 h6
      rwa [family, sub_add_sub_cancel] at this

/-- What the matrix of a path says. -/
theorem pathMatrixJ_ok [Nontrivial R] {solve : Solver R} (hsolve : SolverOK solve) {D : DR R} (hD : DROk D)
    (htop : TopOK solve D) (hB : BasisOK solve D) (hn : 1 ≤ D.n) {listG : List IVec}
    (eG : D.list ((D.d : Int) * D.n - D.n) = .ok listG) (u : IVec) (vs : List IVec)
    (hu : u.length = D.n + 1) (hu0 : NonNeg u) (hp : IsPath D.n D.d (ev D.n u) vs) :
    ∃ P, ∃ c : ℕ → ℕ → R, pathMatrixJ solve D u vs = .ok P ∧ P.rows = D.basis.length ∧
      P.cols = listG.length ∧
      (∀ r k, r < D.basis.length → k < listG.length → P.e r k = (poleFact D r : R) * c r k) ∧
      ∀ k, k < listG.length → xpow R (fun i => ev D.n u i + ev D.n (listG.getD k []) i - 1)
        - ∑ r ∈ Finset.range D.basis.length, c r k • xpow R (ev D.n (D.basis.getD r []))
          ∈ Ex (DRpoly D) D.d := by
  obtain ⟨u', M1, e1, a1, a2, a3, -, a4, a5, a6⟩ :=
    pathLoopJ_ok hsolve hD htop hn eG vs u (CMat.one listG.length) hu hu0 hp rfl
  have hcols : M1.cols = listG.length := a5
  obtain ⟨listG', listH, Mi, b1, b2, -, b4, b5, b6, b7, b8⟩ := inclMatJ_ok hD hn a1 a3
  rw [eG] at b1
  cases b1
  obtain ⟨M2, e2, r2, k2, hM2⟩ := CMat.mul_ok Mi M1 (by omega)
  obtain ⟨L, Mf, c, e3, hM⟩ := finalMatJ_ok hsolve hD hB D.n hn (le_refl _)
  have hLH : L = listH := by
    have h1 := hM.list
    have h2 : (D.n : Int) * D.d - (D.n + 1) = (D.d : Int) * D.n - D.n - 1 := by ring
    rw [h2, b2] at h1
    exact (Except.ok.inj h1).symm
  rw [hLH] at hM
  have hMr := hM.rows
  have hMc := hM.cols
  obtain ⟨P, e4, r4, k4, hP⟩ := CMat.mul_ok Mf M2 (by omega)
  refine ⟨P, fun r k => ∑ t ∈ Finset.range listH.length, c r t * M2.e t k, ?_, by omega, by omega, ?_, ?_⟩
  · rw [pathMatrixJ, eG, Res.bind_ok, e1, Res.bind_ok]
    simp only
    rw [b5, Res.bind_ok, e2, Res.bind_ok, e3, Res.bind_ok, e4]
  · intro r k hr hk
    rw [hP r k (by omega) (by omega), hMc, Finset.mul_sum]
    refine Finset.sum_congr rfl (fun t ht => ?_)
    rw [hM.fact r t hr (Finset.mem_range.1 ht), mul_assoc]
  · intro k hk
    have h1 := a6 k hk
    have h2 := apply_rel _ _ _ _ _ _ hM.rel (fun t => M2.e t k)
    have h3 : ∑ t ∈ Finset.range listH.length, M2.e t k • xpow R (ev D.n (listH.getD t []))
        = family D.n listG (ev D.n u') (fun r => M1.e r k) := by
      rw [family]
      have h0 : ∀ j ∈ Finset.range listG.length,
          M1.e j k • xpow R (fun i => ev D.n u' i + ev D.n (listG.getD j []) i - 1)
            = ∑ t ∈ Finset.range listH.length, M1.e j k • Mi.e t j • xpow R (ev D.n (listH.getD t [])) := by
        intro j hj
        rw [← b8 j (Finset.mem_range.1 hj), Finset.smul_sum]
      rw [Finset.sum_congr rfl h0, Finset.sum_comm]
      refine Finset.sum_congr rfl (fun t ht => ?_)
      rw [hM2 t k (by have := Finset.mem_range.1 ht; omega) (by omega), b7, Finset.sum_smul]
      refine Finset.sum_congr rfl (fun j _ => ?_)
      rw [smul_smul, mul_comm]
    have h4 : family D.n listG (ev D.n u) (fun r => (CMat.one (R := R) listG.length).e r k)
        = xpow R (fun i => ev D.n u i + ev D.n (listG.getD k []) i - 1) := by
      rw [← family_unit (R := R) (ev D.n u) hk]
      apply family_congr
      intro j hj
      simp only [CMat.one, CMat.mk', CVec.unit, CVec.mk', if_pos (And.intro hj hk), if_pos hj]
    rw [h3] at h2
    rw [h4] at h1
    have := Submodule.add_mem _ h1 h2
    rwa [sub_add_sub_cancel] at this

end path

section solver

variable {R : Type} [CommRing R]

theorem bind_fst {α β γ : Type} {x y : Res (α × β)} (h : x.map Prod.fst = y.map Prod.fst) (g : α → Res γ) :
    (x >>= fun a => g a.1) = (y >>= fun a => g a.1) := by
  cases x <;> cases y <;> simp only [Except.map] at h
  · cases h; rfl
  · cases h
  · cases h
  · simp only [Res.bind_ok]; rw [Except.ok.inj h]

theorem init_congr {s s' : Solver R} (h : ∀ T, (s T).map Prod.fst = (s' T).map Prod.fst) (p : ℕ)
    (f : MonMap R) : DR.init s p f = DR.init s' p f := by
  have hJ : ∀ D l, (solveJ s D l).map Prod.fst = (solveJ s' D l).map Prod.fst := by
    intro D l
    rw [solveJ, solveJ]
    cases matrixJ D l with
    | error e => rfl
    | ok T => exact h T
  have hI : ∀ D, initBasis s D = initBasis s' D := by
    intro D
    unfold initBasis
    congr 1
    funext i acc
    exact bind_fst (hJ D _) (fun B => do
      let L ← D.list (((i : Int) + 1) * D.d - (D.n + 1))
      if ((i : Int) + 1) * D.d - (D.n + 1) < 0 then .error .ub
      else
        check (decide (hilbertJ D.d D.n (((i : Int) + 1) * D.d - (D.n + 1)).toNat = B.length))
        let mons ← B.mapM (fun b => aget L b)
        pure (acc ++ mons))
  cases f with
  | nil => rfl
  | cons e f =>
    obtain ⟨k, c⟩ := e
    unfold DR.init
    simp only
    split
    · rfl
    · refine congrArg _ (funext fun _ => congrArg _ (funext fun _ => congrArg _ (funext fun tl => ?_)))
      rw [hI]
      exact bind_fst (hJ _ _) (fun B => do
        check (decide (B.length = 0))
        let basis ← initBasis s' ⟨k.length - 1, (sumVec k).toNat, (k, c) :: f, tl, tl.map buildDict, [], []⟩
        pure (⟨k.length - 1, (sumVec k).toNat, (k, c) :: f, tl, tl.map buildDict, basis, buildDict basis⟩ : DR R))

end solver

end Verif
