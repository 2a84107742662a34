import Verif.Spec.Init
import Verif.Lemmas.HilbertFn
import Verif.Lemmas.Rank
import Verif.Lemmas.NDInit
import Verif.Lemmas.PathIndep

/-! The constructors succeed exactly for smooth, respectively non-degenerate, hypersurfaces. -/

namespace Verif

open Spec MvPolynomial

variable {p N : ℕ} [Fact p.Prime]

theorem pderiv_reduce {n : ℕ} (hN : 1 ≤ N) (h : p ∣ p ^ N) (i : Fin (n + 1)) (P : MvPolynomial (Fin (n + 1)) (ZMod (p ^ N))) :
    MvPolynomial.map (redMod p N hN) (pderiv i P) = pderiv i (reduce h P) := by
  rw [reduce, pderiv_map]; rfl

theorem xd_reduce {n : ℕ} (hN : 1 ≤ N) (h : p ∣ p ^ N) (i : Fin (n + 1)) (P : MvPolynomial (Fin (n + 1)) (ZMod (p ^ N))) :
    MvPolynomial.map (redMod p N hN) (xd i P) = X i * pderiv i (reduce h P) := by
  rw [xd, map_mul, map_X, pderiv_reduce hN h]

/-! ### The number of rows left over -/

theorem solveJ_quotDim (hN : 1 ≤ N) (h : p ∣ p ^ N) {la : LinAlg (ZMod p)} (hla : LinAlgOK la) {flint : Bool}
    {precision : ℕ} {D : DR (ZMod (p ^ N))} (hD : DROk D) {l : ℕ} (hl : l ≤ (D.n + 1) * D.d)
    {B : List ℕ} {U : CMat (ZMod (p ^ N))} (e : solveJ (padicSolver p N la flint precision) D l = .ok (B, U)) :
    (B.length : ℤ) = quotDim (fun i => pderiv i (reduce h (DRpoly D))) (D.n + 1) l := by
  have hd := hD.hd
  have hhom : ∀ i, (pderiv i (DRpoly D)).IsHomogeneous (D.d - 1) :=
    fun i => (toPoly_isHomogeneous D.f hD.f_wf.1 hD.f_hom).pderiv
  have hgoal : quotDim (fun i => pderiv i (reduce h (DRpoly D))) (D.n + 1) l
      = quotDim (fun i => MvPolynomial.map (redMod p N hN) (pderiv i (DRpoly D))) (D.n + 1) l := by
    congr 1
    funext i
    exact (pderiv_reduce hN h i _).symm
  rw [hgoal]
  by_cases hs : (l : ℤ) < (D.d : ℤ) - 1
  · obtain ⟨L, hL, eL, eM⟩ := matrixJ_small hD l (by omega) hs
    rw [solveJ, eM, Res.bind_ok] at e
    exact padic_length hN hL (Or.inr ⟨by omega, rfl⟩) hhom (T := CMat.mk' L.length 0 (fun _ _ => 0)) (S := []) rfl
      (by simp [CMat.mk']) (fun r i j _ hj => absurd hj (by simp)) hla e
  · obtain ⟨L, S, T, hL, hS, -, -, eT, hTr, hTc, hT⟩ := matrixJ_ok' hD.toTabOK (by omega) (l : ℤ) (by omega)
      (by exact_mod_cast hl)
    rw [solveJ, eT, Res.bind_ok] at e
    refine padic_length hN hL (Or.inl ⟨by omega, ?_⟩) hhom hTr hTc ?_ hla e
    · rw [Nat.cast_sub (by omega)]; exact hS
    · intro r i j hr hj
      rw [hT r i j hr i.isLt hj]
      exact (coeff_jac D.f hD.f_wf.1 i (hS.tuple hj).1 (hS.tuple hj).2.1 (hL.tuple hr).1 (hL.tuple hr).2.1).symm

theorem solveND_quotDim (hN : 1 ≤ N) (h : p ∣ p ^ N) {la : LinAlg (ZMod p)} (hla : LinAlgOK la) {flint : Bool}
    {precision : ℕ} {D : DR (ZMod (p ^ N))} (hD : DROk D) {l : ℕ} (hl : l ≤ (D.n + 1) * D.d)
    {B : List ℕ} {U : CMat (ZMod (p ^ N))} (e : solveND (padicSolver p N la flint precision) D l = .ok (B, U)) :
    (B.length : ℤ) = quotDim (fun i => X i * pderiv i (reduce h (DRpoly D))) (D.n + 1) l := by
  have hd := hD.hd
  have hhom : ∀ i, (xd i (DRpoly D)).IsHomogeneous D.d := by
    intro i
    have := (isHomogeneous_X (ZMod (p ^ N)) i).mul ((toPoly_isHomogeneous D.f hD.f_wf.1 hD.f_hom).pderiv (i := i))
    rwa [show 1 + (D.d - 1) = D.d by omega] at this
  have hgoal : quotDim (fun i => X i * pderiv i (reduce h (DRpoly D))) (D.n + 1) l
      = quotDim (fun i => MvPolynomial.map (redMod p N hN) (xd i (DRpoly D))) (D.n + 1) l := by
    congr 1
    funext i
    exact (xd_reduce hN h i _).symm
  rw [hgoal]
  by_cases hs : (l : ℤ) < (D.d : ℤ)
  · obtain ⟨L, hL, eL, eM⟩ := matrixND_small hD l (by omega) hs
    rw [solveND, eM, Res.bind_ok] at e
    exact padic_length hN hL (Or.inr ⟨by omega, rfl⟩) hhom (T := CMat.mk' L.length 0 (fun _ _ => 0)) (S := []) rfl
      (by simp [CMat.mk']) (fun r i j _ hj => absurd hj (by simp)) hla e
  · obtain ⟨L, S, T, hL, hS, -, -, eT, hTr, hTc, hT⟩ := matrixND_ok' hD.toTabOK (l : ℤ) (by omega)
      (by exact_mod_cast hl)
    rw [solveND, eT, Res.bind_ok] at e
    refine padic_length hN hL (Or.inl ⟨by omega, hS⟩) hhom hTr hTc ?_ hla e
    · intro r i j hr hj
      rw [hT r i j hr i.isLt hj]
      exact (coeff_tor D.f hD.f_wf.1 i (hS.tuple hj).1 (hS.tuple hj).2.1 (hL.tuple hr).1 (hL.tuple hr).2.1).symm

theorem jac_reduce_homog {n d : ℕ} (h : p ∣ p ^ N) {P : MvPolynomial (Fin (n + 1)) (ZMod (p ^ N))}
    (hP : P.IsHomogeneous d) (i : Fin (n + 1)) : (pderiv i (reduce h P)).IsHomogeneous (d - 1) :=
  (hP.map _).pderiv

theorem tor_reduce_homog {n d : ℕ} (hd : 1 ≤ d) (h : p ∣ p ^ N) {P : MvPolynomial (Fin (n + 1)) (ZMod (p ^ N))}
    (hP : P.IsHomogeneous d) (i : Fin (n + 1)) : (X i * pderiv i (reduce h P)).IsHomogeneous d := by
  have := (isHomogeneous_X (ZMod p) i).mul (jac_reduce_homog h hP i)
  rwa [show 1 + (d - 1) = d by omega] at this

theorem DRpoly_homog {D : DR (ZMod (p ^ N))} (hD : TabOK D) : (DRpoly D).IsHomogeneous D.d :=
  toPoly_isHomogeneous D.f hD.f_wf.1 hD.f_hom

/-- For a smooth hypersurface the number of rows left over is the coefficient of the Hilbert polynomial. -/
theorem solveJ_count (hN : 1 ≤ N) (h : p ∣ p ^ N) {la : LinAlg (ZMod p)} (hla : LinAlgOK la) {flint : Bool}
    {precision : ℕ} {D : DR (ZMod (p ^ N))} (hD : DROk D) (hd : 2 ≤ D.d)
    (hs : SmoothMod h (DRpoly D)) {l : ℕ} (hl : l ≤ (D.n + 1) * D.d)
    {B : List ℕ} {U : CMat (ZMod (p ^ N))} (e : solveJ (padicSolver p N la flint precision) D l = .ok (B, U)) :
    hilbertJ D.d D.n l = B.length := by
  obtain ⟨M, hM⟩ := pow_mem_of_noCommonZero hs
  rw [solveJ_quotDim hN h hla hD hl e, hilbertJ_eq,
    quotDim_eq (jac_reduce_homog h (DRpoly_homog hD.toTabOK)) (by omega) hM]

theorem solveND_count (hN : 1 ≤ N) (h : p ∣ p ^ N) {la : LinAlg (ZMod p)} (hla : LinAlgOK la) {flint : Bool}
    {precision : ℕ} {D : DR (ZMod (p ^ N))} (hD : DROk D)
    (hs : NondegMod h (DRpoly D)) {l : ℕ} (hl : l ≤ (D.n + 1) * D.d)
    {B : List ℕ} {U : CMat (ZMod (p ^ N))} (e : solveND (padicSolver p N la flint precision) D l = .ok (B, U)) :
    hilbertND D.d D.n l = B.length := by
  have hd := hD.hd
  obtain ⟨M, hM⟩ := pow_mem_of_noCommonZero hs
  rw [solveND_quotDim hN h hla hD hl e, hilbertND_eq,
    quotDim_eq (tor_reduce_homog (by omega) h (DRpoly_homog hD.toTabOK)) (by omega) hM]

/-! ### The top degrees -/

theorem top_le {D : DR (ZMod (p ^ N))} (hd : 2 ≤ D.d) :
    ∃ l : ℕ, D.topLevel = (l : ℤ) ∧ (D.d - 1 - 1) * (D.n + 1) < l ∧ l = (D.d - 2) * (D.n + 1) + 1 ∧ l ≤ (D.n + 1) * D.d := by
  refine ⟨(D.d - 2) * (D.n + 1) + 1, ?_, ?_, rfl, ?_⟩
  · rw [DR.topLevel]; push_cast; rw [Nat.cast_sub hd]; push_cast; ring
  · rw [show D.d - 1 - 1 = D.d - 2 by omega]; omega
  · obtain ⟨x, hx⟩ : ∃ x, D.d = x + 2 := ⟨D.d - 2, by omega⟩
    have e : (D.n + 1) * D.d = (D.d - 2) * (D.n + 1) + 2 * (D.n + 1) := by
      rw [hx, Nat.add_sub_cancel]; ring
    omega

theorem topND_le {D : DR (ZMod (p ^ N))} (hd : 1 ≤ D.d) :
    ∃ l : ℕ, D.topND = (l : ℤ) ∧ (D.d - 1) * (D.n + 1) < l ∧ l ≤ (D.n + 1) * D.d := by
  refine ⟨(D.d - 1) * (D.n + 1) + 1, ?_, by omega, ?_⟩
  · rw [DR.topND]; push_cast; rw [Nat.cast_sub hd]; push_cast; ring
  · obtain ⟨x, hx⟩ : ∃ x, D.d = x + 1 := ⟨D.d - 1, by omega⟩
    have e : (D.n + 1) * D.d = (D.d - 1) * (D.n + 1) + (D.n + 1) := by
      rw [hx, Nat.add_sub_cancel]; ring
    omega

/-- No row is left over in a degree exactly when the ideal contains everything in that degree. -/
theorem quotDim_zero_iff {F : Type} [Field F] {n l : ℕ} (g : Fin (n + 1) → MvPolynomial (Fin (n + 1)) F) :
    quotDim g (n + 1) l = 0 ↔ DegreeInIdeal l g := by
  constructor
  · intro h1
    rw [quotDim] at h1
    have h2 : idealDeg g (n + 1) l = homogeneousSubmodule (Fin (n + 1)) F l := by
      apply Submodule.eq_of_le_of_finrank_eq (idealDeg_le g (n + 1) l)
      omega
    intro a ha
    have h3 : monomial a (1 : F) ∈ homogeneousSubmodule (Fin (n + 1)) F l :=
      isHomogeneous_monomial _ (by rw [Finsupp.degree_eq_sum]; exact ha)
    rw [← h2] at h3
    have := (mem_idealDeg.1 h3).1
    rwa [firstIdeal_all] at this
  · intro h
    have : idealDeg g (n + 1) l = homogeneousSubmodule (Fin (n + 1)) F l := by
      apply le_antisymm (idealDeg_le g (n + 1) l)
      intro w hw
      refine mem_idealDeg.2 ⟨?_, hw⟩
      rw [firstIdeal_all, ← w.support_sum_monomial_coeff]
      refine Ideal.sum_mem _ (fun a ha => ?_)
      have hc : monomial a (coeff a w) = C (coeff a w) * monomial a 1 := by rw [C_mul_monomial, mul_one]
      rw [hc]
      refine Ideal.mul_mem_left _ _ (h a ?_)
      have hw' : w.IsHomogeneous l := hw
      rw [← Finsupp.degree_eq_sum]
      by_contra hne
      exact (mem_support_iff.1 ha) (hw'.coeff_eq_zero hne)
    rw [quotDim, this, sub_self]

theorem topJ_iff (hN : 1 ≤ N) (h : p ∣ p ^ N) {la : LinAlg (ZMod p)} (hla : LinAlgOK la) {flint : Bool}
    {precision : ℕ} {D : DR (ZMod (p ^ N))} (hD : DROk D) (hd : 2 ≤ D.d) {B : List ℕ}
    {U : CMat (ZMod (p ^ N))} (e : solveJ (padicSolver p N la flint precision) D D.topLevel = .ok (B, U)) :
    B.length = 0 ↔ SmoothMod h (DRpoly D) := by
  obtain ⟨l, el, hl1, -, hl2⟩ := top_le hd
  rw [el] at e
  have h1 := solveJ_quotDim hN h hla hD hl2 e
  rw [SmoothMod, ← noCommonZero_iff (jac_reduce_homog h (DRpoly_homog hD.toTabOK)) (by omega) hl1, ← quotDim_zero_iff]
  omega

theorem topND_iff (hN : 1 ≤ N) (h : p ∣ p ^ N) {la : LinAlg (ZMod p)} (hla : LinAlgOK la) {flint : Bool}
    {precision : ℕ} {D : DR (ZMod (p ^ N))} (hD : DROk D) {B : List ℕ}
    {U : CMat (ZMod (p ^ N))} (e : solveND (padicSolver p N la flint precision) D D.topND = .ok (B, U)) :
    B.length = 0 ↔ NondegMod h (DRpoly D) := by
  have hd := hD.hd
  obtain ⟨l, el, hl1, hl2⟩ := topND_le (D := D) (by omega)
  rw [el] at e
  have h1 := solveND_quotDim hN h hla hD hl2 e
  rw [NondegMod, ← noCommonZero_iff (tor_reduce_homog (by omega) h (DRpoly_homog hD.toTabOK)) (by omega) hl1,
    ← quotDim_zero_iff]
  omega

/-- Non-degenerate hypersurfaces are smooth. -/
theorem smooth_of_nondeg {n : ℕ} {h : p ∣ p ^ N} {P : MvPolynomial (Fin (n + 1)) (ZMod (p ^ N))}
    (hP : NondegMod h P) : SmoothMod h P := by
  intro K _ _ x hx
  exact hP K x (fun i => by rw [map_mul, hx i, mul_zero])

/-! ### The constructors -/

theorem initBasis_succeeds (hN : 1 ≤ N) (h : p ∣ p ^ N) {la : LinAlg (ZMod p)} (hla : LinAlgOK la) {flint : Bool}
    {precision : ℕ} (hprec : N ≤ precision) {D : DR (ZMod (p ^ N))} (hD : DROk D) (hd : 2 ≤ D.d)
    (hs : SmoothMod h (DRpoly D)) : ∃ basis, initBasis (padicSolver p N la flint precision) D = .ok basis := by
  have hnd := hD.hd
  obtain ⟨b, e, -⟩ := forRange_inv (n := D.n) (s := ([] : List IVec)) (f := fun i acc => do
    let level : Int := ((i : Int) + 1) * D.d - (D.n + 1)
    let BU ← solveJ (padicSolver p N la flint precision) D level
    let L ← D.list level
    if level < 0 then .error .ub
    else
      check (decide (hilbertJ D.d D.n level.toNat = BU.1.length))
      let mons ← BU.1.mapM (fun b => aget L b)
      pure (acc ++ mons)) (fun _ _ => True) trivial (by
    intro i acc hi _
    have hlev0 : (0 : Int) ≤ ((i : Int) + 1) * D.d - (D.n + 1) := by nlinarith
    have hlev1 : ((i : Int) + 1) * D.d - (D.n + 1) ≤ (D.n + 1) * D.d := by
      have : ((i : Int) + 1) * D.d ≤ (D.n + 1) * D.d := by
        apply mul_le_mul_of_nonneg_right <;> omega
      omega
    obtain ⟨L, B, U, hL, eL, eU, hsB, hlt⟩ := solveJ_shape (padicSolver_ok hla flint hprec) hD _ hlev0 hlev1
    have hmap : B.mapM (fun b => aget L b) = .ok (B.map (fun b => L.getD b [])) := by
      apply mapM_eq_ok
      intro b hb
      rw [aget_of_lt _ _ (hlt b hb), getD_getElem _ _ _ (hlt b hb)]
    obtain ⟨l, hl⟩ := Int.eq_ofNat_of_zero_le hlev0
    have hc : hilbertJ D.d D.n l = B.length := by
      refine solveJ_count hN h hla hD hd hs ?_ (U := U) (by rw [← hl]; exact eU)
      rw [hl] at hlev1
      exact_mod_cast hlev1
    refine ⟨acc ++ B.map (fun b => L.getD b []), ?_, trivial⟩
    simp only [eU, eL, Res.bind_ok]
    rw [if_neg (by omega), hl, Int.toNat_natCast, decide_eq_true hc, check_true, Res.bind_ok, hmap, Res.bind_ok]
    rfl)
  exact ⟨b, e⟩

theorem initBasisND_succeeds (hN : 1 ≤ N) (h : p ∣ p ^ N) {la : LinAlg (ZMod p)} (hla : LinAlgOK la) {flint : Bool}
    {precision : ℕ} (hprec : N ≤ precision) {D : DR (ZMod (p ^ N))} (hD : DROk D)
    (hs : NondegMod h (DRpoly D)) : ∃ basis, initBasisND (padicSolver p N la flint precision) D = .ok basis := by
  have hnd := hD.hd
  obtain ⟨b, e, -⟩ := forRange_inv (n := D.n + 1) (s := ([] : List IVec)) (f := fun i acc => do
    let BU ← solveND (padicSolver p N la flint precision) D ((i : Int) * D.d)
    let L ← D.list ((i : Int) * D.d)
    check (decide (hilbertND D.d D.n (i * D.d) = BU.1.length))
    let mons ← BU.1.mapM (fun b => aget L b)
    pure (acc ++ mons)) (fun _ _ => True) trivial (by
    intro i acc hi _
    have hlev0 : (0 : Int) ≤ (i : Int) * D.d := by positivity
    have hlev1 : (i : Int) * D.d ≤ (D.n + 1) * D.d := by
      apply mul_le_mul_of_nonneg_right <;> omega
    obtain ⟨L, B, U, hL, eL, eU, hsB, hlt⟩ := solveND_shape (padicSolver_ok hla flint hprec) hD _ hlev0 hlev1
    have hmap : B.mapM (fun b => aget L b) = .ok (B.map (fun b => L.getD b [])) := by
      apply mapM_eq_ok
      intro b hb
      rw [aget_of_lt _ _ (hlt b hb), getD_getElem _ _ _ (hlt b hb)]
    have hc : hilbertND D.d D.n (i * D.d) = B.length := by
      refine solveND_count hN h hla hD hs ?_ (U := U) (by push_cast; exact eU)
      exact_mod_cast hlev1
    refine ⟨acc ++ B.map (fun b => L.getD b []), ?_, trivial⟩
    simp only [eU, eL, Res.bind_ok]
    rw [decide_eq_true hc, check_true, Res.bind_ok, hmap, Res.bind_ok]
    rfl)
  exact ⟨b, e⟩

/-- The object after the tables are filled, before the basis. -/
def initTables {R : Type} (n d : ℕ) (f : MonMap R) : DR R :=
  ⟨n, d, f, (List.range ((n + 1) * d + 1)).map (comps n), ((List.range ((n + 1) * d + 1)).map (comps n)).map buildDict, [], []⟩

theorem initTables_ok {R : Type} [CommRing R] {n d : ℕ} {f : MonMap R} (hf : WFPoly (n + 1) f)
    (hdeg : ∀ e ∈ f, deg e.1 = d) (hnd : n < d) : DROk (initTables n d f) := by
  refine ⟨⟨hf, hdeg, ?_⟩, hnd⟩
  intro l hl
  have hl' : l < (n + 1) * d + 1 := by simp only [initTables] at hl; omega
  refine ⟨comps n l, comps_isTable n l, ?_, ?_⟩
  · simp [initTables, hl']
  · simp [initTables, hl']

/-- What the constructor does, once the tables are known. -/
theorem init_eq {R : Type} [CommRing R] (solve : Solver R) {q n d : ℕ} (hq : q ≠ 0) {f : MonMap R} (hf : WFPoly (n + 1) f) (hne : f ≠ [])
    (hdeg : ∀ e ∈ f, deg e.1 = d) (hsize : ∀ l ≤ (n + 1) * d, (l + n).choose n < 2 ^ 63) :
    DR.init solve q f = (do
      check (decide (n < d))
      check (decide (d % q ≠ 0))
      let top ← solveJ solve (initTables n d f) (initTables n d f).topLevel
      check (decide (top.1.length = 0))
      let basis ← initBasis solve (initTables n d f)
      pure { initTables n d f with basis := basis, basisDict := buildDict basis }) := by
  cases f with
  | nil => exact absurd rfl hne
  | cons e f =>
    obtain ⟨k, c⟩ := e
    have hk := hf.1 (k, c) (by simp)
    have hkd : k.sum = d := hdeg (k, c) (by simp)
    have hkl : k.length = n + 1 := hk.1
    simp only [DR.init]
    rw [sumVec_eq_sum, hkd, hkl, if_neg (by omega)]
    simp only [Nat.add_sub_cancel, Int.toNat_natCast]
    rw [tupleTables_ok hsize]
    rfl

theorem initBasis_length_ND (hN : 1 ≤ N) (h : p ∣ p ^ N) {la : LinAlg (ZMod p)} (hla : LinAlgOK la) {flint : Bool}
    {precision : ℕ} (hprec : N ≤ precision) {D : DR (ZMod (p ^ N))} (hD : DROk D) {basis : List IVec}
    (e : initBasisND (padicSolver p N la flint precision) D = .ok basis) : basis.length = D.d ^ D.n := by
  have hd := hD.hd
  obtain ⟨hb, hblk⟩ := initBasisND_ok (padicSolver_ok hla flint hprec) hD e
  have h1 : (basis.length : ℤ) = ∑ i ∈ Finset.range (D.n + 1), hilbertND D.d D.n (i * D.d) := by
    rw [hb, List.length_flatMap, Finset.sum_range, ← List.sum_ofFn, List.ofFn_eq_map]
    rw [← List.map_coe_finRange_eq_range, List.map_map, Nat.cast_list_sum, List.map_map]
    congr 1
    apply List.map_congr_left
    intro i _
    exact (hblk i i.isLt).count.symm
  rw [Finset.sum_congr rfl (fun i _ => hilbertND_eq D.d D.n (i * D.d)), rank_formula_ND D.n D.d (by omega)] at h1
  exact_mod_cast h1

section

variable (hN : 1 ≤ N) (h : p ∣ p ^ N) {la : LinAlg (ZMod p)} (hla : LinAlgOK la) (flint : Bool)
  {precision : ℕ} (hprec : N ≤ precision) {n d : ℕ} {f : MonMap (ZMod (p ^ N))} (hf : WFPoly (n + 1) f) (hne : f ≠ [])
  (hdeg : ∀ e ∈ f, deg e.1 = d) (hsize : ∀ l ≤ (n + 1) * d, (l + n).choose n < 2 ^ 63) (hd : 2 ≤ d)

include hN hla hprec hf hne hdeg hsize hd

theorem init_succeeds (hnd : n < d) (hqd : d % p ≠ 0) (hs : SmoothMod h (toPoly (n + 1) f)) :
    ∃ basis, DR.init (padicSolver p N la flint precision) p f =
      .ok { initTables n d f with basis := basis, basisDict := buildDict basis } := by
  have hok := initTables_ok hf hdeg hnd
  have hs' : SmoothMod h (DRpoly (initTables n d f)) := hs
  have hd' : 2 ≤ (initTables n d f).d := hd
  obtain ⟨l, el, hl1, -, hl2⟩ := top_le hd'
  obtain ⟨L, B, U, -, -, eU, -, -⟩ := solveJ_shape (padicSolver_ok hla flint hprec) hok (initTables n d f).topLevel
    (by rw [el]; omega) (by rw [el]; exact_mod_cast hl2)
  have hB := (topJ_iff hN h hla hok hd' eU).2 hs'
  obtain ⟨basis, eb⟩ := initBasis_succeeds hN h hla (flint := flint) hprec hok hd' hs'
  refine ⟨basis, ?_⟩
  rw [init_eq _ (Fact.out : p.Prime).ne_zero hf hne hdeg hsize, decide_eq_true hnd, check_true, Res.bind_ok, decide_eq_true hqd, check_true,
    Res.bind_ok, eU, Res.bind_ok, decide_eq_true hB, check_true, Res.bind_ok, eb]
  rfl

theorem init_refuses (hs : ¬ (n < d ∧ d % p ≠ 0 ∧ SmoothMod h (toPoly (n + 1) f))) :
    DR.init (padicSolver p N la flint precision) p f = .error .assertFail := by
  rw [init_eq _ (Fact.out : p.Prime).ne_zero hf hne hdeg hsize]
  by_cases hnd : n < d
  · by_cases hqd : d % p ≠ 0
    · have hok := initTables_ok hf hdeg hnd
      have hd' : 2 ≤ (initTables n d f).d := hd
      obtain ⟨l, el, hl1, -, hl2⟩ := top_le hd'
      obtain ⟨L, B, U, -, -, eU, -, -⟩ := solveJ_shape (padicSolver_ok hla flint hprec) hok (initTables n d f).topLevel
        (by rw [el]; omega) (by rw [el]; exact_mod_cast hl2)
      have hB : ¬ B.length = 0 := fun hB => hs ⟨hnd, hqd, (topJ_iff hN h hla hok hd' eU).1 hB⟩
      rw [decide_eq_true hnd, check_true, Res.bind_ok, decide_eq_true hqd, check_true,
        Res.bind_ok, eU, Res.bind_ok, decide_eq_false hB, check_false]
      rfl
    · rw [decide_eq_true hnd, check_true, Res.bind_ok, decide_eq_false hqd, check_false]
      rfl
  · rw [decide_eq_false hnd, check_false]
    rfl

theorem initND_succeeds (hnd : n < d) (hqd : d % p ≠ 0) (hs : NondegMod h (toPoly (n + 1) f)) :
    ∃ D, ND.init (padicSolver p N la flint precision) p f = .ok D := by
  obtain ⟨basis, eD⟩ := init_succeeds hN h hla flint hprec hf hne hdeg hsize hd hnd hqd (smooth_of_nondeg hs)
  obtain ⟨D, hD⟩ : ∃ D : DR (ZMod (p ^ N)), D = { initTables n d f with basis := basis, basisDict := buildDict basis } :=
    ⟨_, rfl⟩
  rw [← hD] at eD
  obtain ⟨e1, e2, hI⟩ := init_ok (padicSolver_ok hla flint hprec) hf hdeg hsize eD
  have hs' : NondegMod h (DRpoly D) := by subst hD; exact hs
  have hd1 := hI.ok.hd
  obtain ⟨l, el, hl1, hl2⟩ := topND_le (D := D) (by omega)
  obtain ⟨L, B, U, -, -, eU, -, -⟩ := solveND_shape (padicSolver_ok hla flint hprec) hI.ok D.topND
    (by rw [el]; omega) (by rw [el]; exact_mod_cast hl2)
  have hB := (topND_iff hN h hla hI.ok eU).2 hs'
  obtain ⟨b, eb⟩ := initBasisND_succeeds hN h hla (flint := flint) hprec hI.ok hs'
  have hlen := initBasis_length_ND hN h hla hprec hI.ok eb
  refine ⟨{ toDR := D, ndBasis := b, ndDict := buildDict b }, ?_⟩
  rw [ND.init, eD, Res.bind_ok, eU, Res.bind_ok, decide_eq_true hB, check_true, Res.bind_ok, eb, Res.bind_ok,
    decide_eq_true hlen, check_true]
  rfl

theorem initND_refuses (hs : ¬ (n < d ∧ d % p ≠ 0 ∧ NondegMod h (toPoly (n + 1) f))) :
    ND.init (padicSolver p N la flint precision) p f = .error .assertFail := by
  by_cases h1 : n < d ∧ d % p ≠ 0 ∧ SmoothMod h (toPoly (n + 1) f)
  · obtain ⟨basis, eD⟩ := init_succeeds hN h hla flint hprec hf hne hdeg hsize hd h1.1 h1.2.1 h1.2.2
    obtain ⟨D, hD⟩ : ∃ D : DR (ZMod (p ^ N)),
      D = { initTables n d f with basis := basis, basisDict := buildDict basis } := ⟨_, rfl⟩
    rw [← hD] at eD
    obtain ⟨e1, e2, hI⟩ := init_ok (padicSolver_ok hla flint hprec) hf hdeg hsize eD
    have hd1 := hI.ok.hd
    obtain ⟨l, el, hl1, hl2⟩ := topND_le (D := D) (by omega)
    obtain ⟨L, B, U, -, -, eU, -, -⟩ := solveND_shape (padicSolver_ok hla flint hprec) hI.ok D.topND
      (by rw [el]; omega) (by rw [el]; exact_mod_cast hl2)
    have hB : ¬ B.length = 0 := by
      intro hB
      refine hs ⟨h1.1, h1.2.1, ?_⟩
      have := (topND_iff hN h hla hI.ok eU).1 hB
      subst hD
      exact this
    rw [ND.init, eD, Res.bind_ok, eU, Res.bind_ok, decide_eq_false hB, check_false]
    rfl
  · rw [ND.init, init_refuses hN h hla flint hprec hf hne hdeg hsize hd h1]
    rfl

end

end Verif
