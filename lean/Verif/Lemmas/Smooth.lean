import Verif.Spec.Smooth
import Verif.Lemmas.NDMatrix
import Verif.Lemmas.BasisIndep

/-! Smoothness tests: the rank of a relation matrix and the ideal it belongs to. -/

namespace Verif

open Spec MvPolynomial

/-! ### Rank and ideal -/

section

variable {F : Type} [Field F] {n : Nat}

theorem rank_eq_rows_iff {m k : Nat} (T : Matrix (Fin m) (Fin k) F) :
    T.rank = m ↔ ∃ U : Matrix (Fin k) (Fin m) F, T * U = 1 := by
  constructor
  · intro h
    have htop : LinearMap.range T.mulVecLin = ⊤ := by
      apply Submodule.eq_top_of_finrank_eq
      rw [Module.finrank_fin_fun]
      exact h
    have hs : ∀ j : Fin m, ∃ v, T.mulVec v = Pi.single j 1 := fun j => by
      have : (Pi.single j 1 : Fin m → F) ∈ LinearMap.range T.mulVecLin := by rw [htop]; trivial
      obtain ⟨v, hv⟩ := this
      exact ⟨v, hv⟩
    choose v hv using hs
    refine ⟨Matrix.of (fun i j => v j i), ?_⟩
    ext i j
    have := congrFun (hv j) i
    rw [Matrix.mul_apply, Matrix.one_apply]
    rw [Matrix.mulVec, dotProduct, Pi.single_apply] at this
    exact this
  · rintro ⟨U, hU⟩
    apply le_antisymm (by simpa using T.rank_le_height)
    have := Matrix.rank_mul_le_left T U
    rw [hU, Matrix.rank_one, Fintype.card_fin] at this
    exact this

/-- The matrix of `(H_i) ↦ Σ H_i g_i` into degree `l` has full row rank exactly when every monomial of degree
`l` is in the ideal of the `g_i`. -/
theorem rank_iff_ideal {l k : ℕ} {L S : List IVec} (hkl : k ≤ l) (hL : IsTable n l L)
    (hS : IsTable n ((l : ℤ) - k) S) (g : Fin (n + 1) → MvPolynomial (Fin (n + 1)) F)
    (hg : ∀ i, (g i).IsHomogeneous k) {T : CMat F} (hTr : T.rows = L.length) (hTc : T.cols = (n + 1) * S.length)
    (hT : ∀ r (i : Fin (n + 1)) j, r < L.length → j < S.length →
      T.e r (i.val * S.length + j)
        = coeff (expo (n + 1) (L.getD r [])) (xpow F (ev n (S.getD j [])) * g i)) :
    (toMat T T.rows T.cols).rank = T.rows ↔ DegreeInIdeal l g := by
  have hS' : IsTable n ((l - k : ℕ) : ℤ) S := by rw [Nat.cast_sub hkl]; exact hS
  have hhom : ∀ i j, j < S.length → (xpow F (ev n (S.getD j [])) * g i).IsHomogeneous l := by
    intro i j hj
    have h2 : l = (l - k) + k := by omega
    rw [h2]
    refine IsHomogeneous.mul ?_ (hg i)
    apply xpow_isHomogeneous
    rw [sum_ev_tuple (hS'.tuple hj)]
  rw [rank_eq_rows_iff]
  constructor
  · rintro ⟨U, hU⟩ a ha
    obtain ⟨U', hU'⟩ : ∃ U' : CMat F, U' = ⟨T.cols, T.rows, fun i j =>
      if h : i < T.cols ∧ j < T.rows then U ⟨i, h.1⟩ ⟨j, h.2⟩ else 0⟩ := ⟨_, rfl⟩
    have hsol : Solves T [] U' := by
      refine ⟨List.Pairwise.nil, by simp, by rw [hU']; simp, by rw [hU'], ?_⟩
      rw [← hU]
      ext i j
      rw [Matrix.mul_apply, Matrix.mul_apply]
      refine Finset.sum_congr rfl (fun x _ => ?_)
      have hx : x.val < T.cols := x.isLt
      have h2 : toMat U' (T.cols + ([] : List Nat).length) T.rows x j = U x j := by
        rw [hU']
        exact dif_pos ⟨hx, j.isLt⟩
      rw [augment, dif_pos hx, h2]
      rfl
    obtain ⟨t, ht, hta⟩ := exists_ev (n := n) (fun i => (a i : ℤ))
    have htt : IsTuple (n + 1) l t := by
      refine tuple_of_ev ht (fun i => by rw [hta]; exact Int.natCast_nonneg _) ?_
      rw [hta, ← ha]
      push_cast
      rfl
    obtain ⟨r, hr, hrt, -⟩ := hL.exists_index htt
    have := solves_decomp hL g hTr hTc hhom hT hsol hr
    rw [hrt, hta] at this
    have hx : xpow F (fun i => (a i : ℤ)) = monomial a 1 := by
      rw [xpow_of_nonneg (fun i => Int.natCast_nonneg _)]
      refine congrArg (fun a => monomial a (1 : F)) ?_
      ext i
      simp
    rw [hx] at this
    rw [this]
    refine Ideal.add_mem _ ?_ ?_
    · exact Ideal.sum_mem _ (fun i _ => Ideal.mul_mem_left _ _ (Ideal.subset_span ⟨i, rfl⟩))
    · simp
  · intro h
    have hcol : ∀ a : Fin T.rows, ∃ c : Nat → F, ∀ r : Fin T.rows,
        ∑ j ∈ Finset.range T.cols, T.e r j * c j = if r = a then 1 else 0 := by
      intro a
      have haL : a.val < L.length := by rw [← hTr]; exact a.isLt
      have hdeg : ∀ r, r < L.length → (∑ i, expo (n + 1) (L.getD r []) i = l) := by
        intro r hr
        have := sum_ev_tuple (hL.tuple hr)
        have e2 : ((∑ i, expo (n + 1) (L.getD r []) i : ℕ) : ℤ) = l := by
          rw [← this]; push_cast
          refine Finset.sum_congr rfl (fun i _ => ?_)
          rw [expo_apply, ev]
          exact Int.toNat_of_nonneg (ev_nonneg (hL.tuple hr) i)
        exact_mod_cast e2
      have hmem := h _ (hdeg a haL)
      obtain ⟨H, hH⟩ : ∃ H : Fin (n + 1) → MvPolynomial (Fin (n + 1)) F,
          ∑ i, H i * g i = monomial (expo (n + 1) (L.getD a [])) 1 := by
        rw [Ideal.span, Submodule.mem_span_range_iff_exists_fun] at hmem
        exact hmem
      refine ⟨fun j => if hj : j / S.length < n + 1 then
        coeff (expo (n + 1) (S.getD (j % S.length) [])) (homogeneousComponent (l - k) (H ⟨j / S.length, hj⟩)) else 0, ?_⟩
      intro r
      have hrL : r.val < L.length := by rw [← hTr]; exact r.isLt
      have hcomp : ∀ i, homogeneousComponent l (H i * g i) =
          combo n S (fun s => coeff (expo (n + 1) (S.getD s [])) (homogeneousComponent (l - k) (H i))) * g i := by
        intro i
        rw [component_mul (hg i), if_pos hkl, combo_coeff hS' (homogeneousComponent_isHomogeneous (l - k) (H i))]
      have e1 := congrArg (fun P => coeff (expo (n + 1) (L.getD r [])) (homogeneousComponent l P)) hH
      simp only [map_sum, hcomp, coeff_sum] at e1
      rw [coeff_homogeneousComponent, if_pos (by rw [Finsupp.degree_eq_sum]; exact hdeg r hrL), coeff_monomial] at e1
      have e3 : ∀ i : Fin (n + 1), coeff (expo (n + 1) (L.getD r []))
          (combo n S (fun s => coeff (expo (n + 1) (S.getD s [])) (homogeneousComponent (l - k) (H i))) * g i)
          = ∑ j ∈ Finset.range S.length, T.e r (i.val * S.length + j) *
            coeff (expo (n + 1) (S.getD j [])) (homogeneousComponent (l - k) (H i)) := by
        intro i
        rw [combo, Finset.sum_mul, coeff_sum]
        refine Finset.sum_congr rfl (fun j hj => ?_)
        rw [smul_mul_assoc, coeff_smul, ← hT r i j hrL (Finset.mem_range.1 hj), smul_eq_mul, mul_comm]
      simp only [e3] at e1
      rw [hTc, ← sum_blocks, Finset.sum_range]
      have hra : (expo (n + 1) (L.getD a []) = expo (n + 1) (L.getD r [])) ↔ r = a := by
        constructor
        · intro e
          exact Fin.ext (hL.getD_inj hrL haL (expo_inj (hL.tuple hrL).1 (hL.tuple haL).1 (hL.tuple hrL).2.1
            (hL.tuple haL).2.1 e.symm))
        · rintro rfl; rfl
      simp only [hra] at e1
      rw [← e1]
      refine Finset.sum_congr rfl (fun i _ => Finset.sum_congr rfl (fun j hj => ?_))
      have hj' := Finset.mem_range.1 hj
      have hdiv : (i.val * S.length + j) / S.length = i.val := by
        rw [mul_comm, Nat.mul_add_div (by omega), Nat.div_eq_of_lt hj', add_zero]
      have hmod : (i.val * S.length + j) % S.length = j := by
        rw [mul_comm, Nat.mul_add_mod, Nat.mod_eq_of_lt hj']
      simp only [hdiv, hmod, i.isLt, dif_pos]
    choose c hc using hcol
    refine ⟨Matrix.of (fun j a => c a j), ?_⟩
    ext r a
    rw [Matrix.mul_apply, Matrix.one_apply, ← hc a r, Finset.sum_range]
    rfl

/-- A power of every variable is in the ideal, so a common zero is the origin. -/
theorem noCommonZero_of_ideal {l : Nat} (hl : 1 ≤ l) {g : Fin (n + 1) → MvPolynomial (Fin (n + 1)) F}
    (h : DegreeInIdeal l g) : NoCommonZero g := by
  intro K _ _ x hx
  funext i
  have hmem := h (Finsupp.single i l) (by simp [Finsupp.single_apply])
  have hle : Ideal.span (Set.range g) ≤ RingHom.ker (aeval x : MvPolynomial (Fin (n + 1)) F →ₐ[F] K) := by
    rw [Ideal.span_le]
    rintro _ ⟨j, rfl⟩
    exact hx j
  have := hle hmem
  rw [RingHom.mem_ker, aeval_monomial, map_one, one_mul, Finsupp.prod_single_index (h := fun i k => x i ^ k) (pow_zero _)] at this
  exact pow_eq_zero_iff (by omega) |>.1 this

end

/-! ### The tests -/

section

variable {p : Nat} [Fact p.Prime] {q n d : Nat}

theorem cast_rep (h : p ∣ q) (x : ZMod p) : ZMod.castHom h (ZMod p) ((x.val : Nat) : ZMod q) = x := by
  rw [map_natCast, ZMod.natCast_zmod_val]

theorem cast_val [NeZero q] (h : p ∣ q) (x : ZMod q) : ((x.val : Nat) : ZMod p) = ZMod.castHom h (ZMod p) x := by
  rw [ZMod.castHom_apply, ZMod.natCast_val]

theorem smoothObj_ok (q : Nat) {f : MonMap (ZMod p)} (hf : WFPoly (n + 1) f) (hne : f ≠ []) (hdeg : ∀ e ∈ f, deg e.1 = d)
    (hsize : ∀ l ≤ (n + 1) * d, (l + n).choose n < 2 ^ 63) :
    ∃ D : DR (ZMod q), smoothObj q f = .ok D ∧ D.n = n ∧ D.d = d ∧
      D.f = f.map (fun e => (e.1, ((e.2.val : Nat) : ZMod q))) ∧ TabOK D := by
  cases f with
  | nil => exact absurd rfl hne
  | cons e f =>
    obtain ⟨k, c⟩ := e
    have hk := hf.1 (k, c) (by simp)
    have hkl : k.length = n + 1 := hk.1
    have hkd : k.sum = d := hdeg (k, c) (by simp)
    refine ⟨⟨n, d, ((k, c) :: f).map (fun e => (e.1, ((e.2.val : Nat) : ZMod q))),
      (List.range ((n + 1) * d + 1)).map (comps n),
      ((List.range ((n + 1) * d + 1)).map (comps n)).map buildDict, [], []⟩, ?_, rfl, rfl, rfl, ?_⟩
    · simp only [smoothObj]
      rw [sumVec_eq_sum, hkd, hkl, if_neg (by omega)]
      simp only [Nat.add_sub_cancel, Int.toNat_natCast]
      rw [tupleTables_ok hsize, Res.bind_ok]
    · refine ⟨⟨?_, ?_⟩, ?_, ?_⟩
      · intro e he
        obtain ⟨e', he', rfl⟩ := List.mem_map.1 he
        exact hf.1 e' he'
      · have := hf.2
        simp only [List.map_map]
        exact this
      · intro e he
        obtain ⟨e', he', rfl⟩ := List.mem_map.1 he
        exact hdeg e' he'
      · intro l hl
        refine ⟨comps n l, comps_isTable n l, ?_, ?_⟩
        · have : l < (n + 1) * d + 1 := by simp only at hl; omega
          simp [this]
        · have : l < (n + 1) * d + 1 := by simp only at hl; omega
          simp [this]

theorem castHom_jacCoeff (h : p ∣ q) (f : MonMap (ZMod p)) (i : Nat) (t s : IVec) :
    ZMod.castHom h (ZMod p) (jacCoeff (f.map (fun e => (e.1, ((e.2.val : Nat) : ZMod q)))) i t s) = jacCoeff f i t s := by
  rw [jacCoeff, jacCoeff, map_list_sum, List.map_map, List.map_map]
  refine congrArg List.sum (List.map_congr_left (fun e _ => ?_))
  simp only [Function.comp]
  split
  · rw [map_mul, map_intCast, cast_rep]
  · exact map_zero _

theorem castHom_torCoeff (h : p ∣ q) (f : MonMap (ZMod p)) (i : Nat) (t s : IVec) :
    ZMod.castHom h (ZMod p) (torCoeff (f.map (fun e => (e.1, ((e.2.val : Nat) : ZMod q)))) i t s) = torCoeff f i t s := by
  rw [torCoeff, torCoeff, map_list_sum, List.map_map, List.map_map]
  refine congrArg List.sum (List.map_congr_left (fun e _ => ?_))
  simp only [Function.comp]
  split
  · rw [map_mul, map_intCast, cast_rep]
  · exact map_zero _

theorem isSmooth_ok [NeZero q] (hpq : p ∣ q) {la : RankDet (ZMod p)} (hla : RankDetOK la) {f : MonMap (ZMod p)}
    (hf : WFPoly (n + 1) f) (hne : f ≠ []) (hdeg : ∀ e ∈ f, deg e.1 = d) (hd : 2 ≤ d)
    (hsize : ∀ l ≤ (n + 1) * d, (l + n).choose n < 2 ^ 63) :
    ∃ b, isSmooth la q f = .ok b ∧ (b = true ↔
      DegreeInIdeal ((d - 2) * (n + 1) + 1) (fun i => pderiv i (toPoly (n + 1) f))) := by
  obtain ⟨D, eD, rfl, rfl, hDf, hD⟩ := smoothObj_ok q hf hne hdeg hsize
  obtain ⟨l, hl⟩ : ∃ l : Nat, l = (D.d - 2) * (D.n + 1) + 1 := ⟨_, rfl⟩
  have hlt : D.topLevel = (l : Int) := by
    rw [DR.topLevel, hl]; push_cast; rw [Nat.cast_sub hd]; push_cast; ring
  have hl1 : D.d - 1 ≤ l := by
    have : (D.d - 2) * 1 ≤ (D.d - 2) * (D.n + 1) := Nat.mul_le_mul_left _ (by omega)
    omega
  have hl2 : l ≤ (D.n + 1) * D.d := by
    have e : (D.n + 1) * D.d = (D.d - 2) * (D.n + 1) + 2 * (D.n + 1) := by
      obtain ⟨x, hx⟩ : ∃ x, D.d = x + 2 := ⟨D.d - 2, by omega⟩
      rw [hx, Nat.add_sub_cancel]; ring
    omega
  obtain ⟨L, S, T, hL, hS, -, -, eT, hTr, hTc, hT⟩ := matrixJ_ok' hD (by omega) D.topLevel (by omega)
    (by rw [hlt]; exact_mod_cast hl2)
  rw [hlt] at hL hS
  refine ⟨_, by rw [isSmooth, eD, Res.bind_ok, eT, Res.bind_ok]; rfl, ?_⟩
  rw [decide_eq_true_eq, hla.rank, eq_comm, ← hl]
  have hS' : IsTable D.n ((l : ℤ) - ((D.d - 1 : Nat) : ℤ)) S := by
    rw [Nat.cast_sub (by omega)]; exact hS
  refine rank_iff_ideal hl1 hL hS' (fun i => pderiv i (toPoly (D.n + 1) f))
    (fun i => (toPoly_isHomogeneous f hf.1 hdeg).pderiv) (T := modpMat p T) hTr hTc ?_
  intro r i j hr hj
  have hc : i.val * S.length + j < T.cols := by rw [hTc]; exact rowMajor_lt i.isLt hj
  rw [coeff_jac f hf.1 i (hS.tuple hj).1 (hS.tuple hj).2.1 (hL.tuple hr).1 (hL.tuple hr).2.1, modpMat, CMat.mk']
  simp only
  rw [if_pos ⟨by rw [hTr]; exact hr, hc⟩, hT r i j hr i.isLt hj, cast_val hpq, hDf, castHom_jacCoeff]

theorem isND_ok [NeZero q] (hpq : p ∣ q) {la : RankDet (ZMod p)} (hla : RankDetOK la) {f : MonMap (ZMod p)}
    (hf : WFPoly (n + 1) f) (hne : f ≠ []) (hdeg : ∀ e ∈ f, deg e.1 = d) (hd : 1 ≤ d)
    (hsize : ∀ l ≤ (n + 1) * d, (l + n).choose n < 2 ^ 63) :
    ∃ b, isND la q f = .ok b ∧ (b = true ↔
      DegreeInIdeal ((d - 1) * (n + 1) + 1) (fun i => X i * pderiv i (toPoly (n + 1) f))) := by
  obtain ⟨D, eD, rfl, rfl, hDf, hD⟩ := smoothObj_ok q hf hne hdeg hsize
  obtain ⟨l, hl⟩ : ∃ l : Nat, l = (D.d - 1) * (D.n + 1) + 1 := ⟨_, rfl⟩
  have hlt : D.topND = (l : Int) := by
    rw [DR.topND, hl]; push_cast; rw [Nat.cast_sub hd]; push_cast; ring
  have hl1 : D.d ≤ l := by
    have : (D.d - 1) * 1 ≤ (D.d - 1) * (D.n + 1) := Nat.mul_le_mul_left _ (by omega)
    omega
  have hl2 : l ≤ (D.n + 1) * D.d := by
    have e : (D.n + 1) * D.d = (D.d - 1) * (D.n + 1) + (D.n + 1) := by
      obtain ⟨x, hx⟩ : ∃ x, D.d = x + 1 := ⟨D.d - 1, by omega⟩
      rw [hx, Nat.add_sub_cancel]; ring
    omega
  obtain ⟨L, S, T, hL, hS, -, -, eT, hTr, hTc, hT⟩ := matrixND_ok' hD D.topND (by omega)
    (by rw [hlt]; exact_mod_cast hl2)
  rw [hlt] at hL hS
  refine ⟨_, by rw [isND, eD, Res.bind_ok, eT, Res.bind_ok]; rfl, ?_⟩
  rw [decide_eq_true_eq, hla.rank, eq_comm, ← hl]
  have hxd : ∀ i : Fin (D.n + 1), (X i * pderiv i (toPoly (D.n + 1) f)).IsHomogeneous D.d := by
    intro i
    have := (isHomogeneous_X (ZMod p) i).mul ((toPoly_isHomogeneous f hf.1 hdeg).pderiv (i := i))
    rwa [show 1 + (D.d - 1) = D.d by omega] at this
  refine rank_iff_ideal hl1 hL hS (fun i => X i * pderiv i (toPoly (D.n + 1) f)) hxd (T := modpMat p T) hTr hTc ?_
  intro r i j hr hj
  have hc : i.val * S.length + j < T.cols := by rw [hTc]; exact rowMajor_lt i.isLt hj
  have h1 := coeff_tor f hf.1 i (hS.tuple hj).1 (hS.tuple hj).2.1 (hL.tuple hr).1 (hL.tuple hr).2.1
  rw [xd] at h1
  rw [h1, modpMat, CMat.mk']
  simp only
  rw [if_pos ⟨by rw [hTr]; exact hr, hc⟩, hT r i j hr i.isLt hj, cast_val hpq, hDf, castHom_torCoeff]

end

end Verif
