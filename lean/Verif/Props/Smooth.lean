import Verif.Lemmas.Smooth
import Verif.Lemmas.PolyDeg

/-!
The smoothness tests and the search for a better model: properties C37, C38 and C39.
-/

namespace Verif

open Spec MvPolynomial

universe u

local instance : Fact (Nat.Prime 5) := ⟨by norm_num⟩

/-! ### C37 -/

section

variable {p : Nat} [Fact p.Prime] {q n d : Nat}

/-- **C37 (isSmooth).**  For every homogeneous polynomial of degree `d >= 2` over `F_p`, and every modulus `q`
of `ZZ_p` divisible by `p`, `isSmooth` returns; the result is `true` exactly when every monomial of degree
`(d-2)(n+1)+1` is in the Jacobian ideal; and then the partial derivatives have no common zero but the origin
over any extension field. -/
theorem C37_isSmooth [NeZero q] (hpq : p ∣ q) (la : RankDet (ZMod p)) (hla : RankDetOK la) (f : MonMap (ZMod p))
    (hf : WFPoly (n + 1) f) (hne : f ≠ []) (hdeg : ∀ e ∈ f, deg e.1 = d) (hd : 2 ≤ d)
    (hsize : ∀ l ≤ (n + 1) * d, (l + n).choose n < 2 ^ 63) :
    ∃ b, isSmooth la q f = .ok b ∧
      (b = true ↔ DegreeInIdeal ((d - 2) * (n + 1) + 1) (fun i => pderiv i (toPoly (n + 1) f))) ∧
      (b = true → NoCommonZero.{u} (fun i => pderiv i (toPoly (n + 1) f))) := by
  obtain ⟨b, e, hb⟩ := isSmooth_ok hpq hla hf hne hdeg hd hsize
  exact ⟨b, e, hb, fun h => noCommonZero_of_ideal (by omega) (hb.1 h)⟩

/-- **C37 (isND).**  The same for `isND`, the polynomials `x_i ∂_i f` and degree `(d-1)(n+1)+1`. -/
theorem C37_isND [NeZero q] (hpq : p ∣ q) (la : RankDet (ZMod p)) (hla : RankDetOK la) (f : MonMap (ZMod p))
    (hf : WFPoly (n + 1) f) (hne : f ≠ []) (hdeg : ∀ e ∈ f, deg e.1 = d) (hd : 1 ≤ d)
    (hsize : ∀ l ≤ (n + 1) * d, (l + n).choose n < 2 ^ 63) :
    ∃ b, isND la q f = .ok b ∧
      (b = true ↔ DegreeInIdeal ((d - 1) * (n + 1) + 1) (fun i => X i * pderiv i (toPoly (n + 1) f))) ∧
      (b = true → NoCommonZero.{u} (fun i => X i * pderiv i (toPoly (n + 1) f))) := by
  obtain ⟨b, e, hb⟩ := isND_ok hpq hla hf hne hdeg hd hsize
  exact ⟨b, e, hb, fun h => noCommonZero_of_ideal (by omega) (hb.1 h)⟩

/-- **C37 (consequence).**  Non-degenerate hypersurfaces are smooth: if `isND(f)` is true the partial
derivatives have no common zero but the origin. -/
theorem C37_isND_smooth [NeZero q] (hpq : p ∣ q) (la : RankDet (ZMod p)) (hla : RankDetOK la) (f : MonMap (ZMod p))
    (hf : WFPoly (n + 1) f) (hne : f ≠ []) (hdeg : ∀ e ∈ f, deg e.1 = d) (hd : 1 ≤ d)
    (hsize : ∀ l ≤ (n + 1) * d, (l + n).choose n < 2 ^ 63) (h : isND la q f = .ok true) :
    NoCommonZero.{u} (fun i => pderiv i (toPoly (n + 1) f)) := by
  obtain ⟨b, e, hb, hz⟩ := C37_isND.{u} hpq la hla f hf hne hdeg hd hsize
  rw [h] at e
  have hb := Except.ok.inj e
  intro K _ _ x hx
  exact hz hb.symm K x (fun i => by rw [map_mul, hx i, mul_zero])

/-- **C37 (the modulus does not matter).**  The tests return the same answer whatever multiple of `p` the
modulus of `ZZ_p` is, and whatever routine computes the ranks. -/
theorem C37_modulus {q' : Nat} [NeZero q] [NeZero q'] (hpq : p ∣ q) (hpq' : p ∣ q') (la la' : RankDet (ZMod p))
    (hla : RankDetOK la) (hla' : RankDetOK la') (f : MonMap (ZMod p)) (hf : WFPoly (n + 1) f) (hne : f ≠ [])
    (hdeg : ∀ e ∈ f, deg e.1 = d) (hd : 2 ≤ d) (hsize : ∀ l ≤ (n + 1) * d, (l + n).choose n < 2 ^ 63) :
    isSmooth la q f = isSmooth la' q' f ∧ isND la q f = isND la' q' f := by
  obtain ⟨b, e, hb⟩ := isSmooth_ok hpq hla hf hne hdeg hd hsize
  obtain ⟨b', e', hb'⟩ := isSmooth_ok hpq' hla' hf hne hdeg hd hsize
  obtain ⟨c, g, hc⟩ := isND_ok hpq hla hf hne hdeg (by omega) hsize
  obtain ⟨c', g', hc'⟩ := isND_ok hpq' hla' hf hne hdeg (by omega) hsize
  rw [e, e', g, g', Bool.eq_iff_iff.2 (hb.trans hb'.symm), Bool.eq_iff_iff.2 (hc.trans hc'.symm)]
  exact ⟨rfl, rfl⟩

end

/-- The contract can be met. -/
theorem exists_rankDet (F : Type) [Field F] : ∃ la : RankDet F, RankDetOK la :=
  ⟨⟨fun M => (toMat M M.rows M.cols).rank, fun M => (toMat M M.rows M.rows).det⟩,
    ⟨fun _ => rfl, fun M n hr hc => by subst hr; rfl⟩⟩

/-- A conic in two variables, accepted by both tests, and a double point, refused. -/
def exSmooth : MonMap (ZMod 5) := [([0, 2], 1), ([2, 0], 1)]

def exSingular : MonMap (ZMod 5) := [([2, 0], 1)]

theorem exSmooth_wf : WFPoly (1 + 1) exSmooth ∧ exSmooth ≠ [] ∧ ∀ e ∈ exSmooth, deg e.1 = (2 : Nat) := by
  refine ⟨?_, by decide, ?_⟩
  · unfold exSmooth WFPoly NonNeg LexLt; decide
  · unfold exSmooth; decide

theorem exSingular_wf : WFPoly (1 + 1) exSingular ∧ exSingular ≠ [] ∧ ∀ e ∈ exSingular, deg e.1 = (2 : Nat) := by
  refine ⟨?_, by decide, ?_⟩
  · unfold exSingular WFPoly NonNeg LexLt; decide
  · unfold exSingular; decide

theorem exSmooth_poly : toPoly (1 + 1) exSmooth = X 0 ^ 2 + X 1 ^ 2 := by
  rw [exSmooth, toPoly_cons, toPoly_cons, toPoly_nil, add_zero, add_comm (X 0 ^ 2), X_pow_eq_monomial, X_pow_eq_monomial]
  congr 1
  · refine congrArg (fun a => monomial a (1 : ZMod 5)) ?_
    ext i
    fin_cases i <;> simp [expo_apply]
  · refine congrArg (fun a => monomial a (1 : ZMod 5)) ?_
    ext i
    fin_cases i <;> simp [expo_apply]

theorem exSingular_poly : toPoly (1 + 1) exSingular = X 0 ^ 2 := by
  rw [exSingular, toPoly_cons, toPoly_nil, add_zero, X_pow_eq_monomial]
  refine congrArg (fun a => monomial a (1 : ZMod 5)) ?_
  ext i
  fin_cases i <;> simp [expo_apply]

theorem small_choose {n d : Nat} (h : n = 1) (hd : d = 2) : ∀ l ≤ (n + 1) * d, (l + n).choose n < 2 ^ 63 := by
  subst h; subst hd
  intro l hl
  rw [Nat.choose_one_right]
  omega

theorem exSmooth_nd (la : RankDet (ZMod 5)) (hla : RankDetOK la) : isND la 25 exSmooth = .ok true := by
  obtain ⟨b, e, hb, -⟩ := C37_isND.{0} (q := 25) (by norm_num) la hla exSmooth exSmooth_wf.1 exSmooth_wf.2.1
    exSmooth_wf.2.2 (by norm_num) (small_choose rfl rfl)
  rw [e]
  congr 1
  rw [hb]
  intro a ha
  rw [exSmooth_poly]
  have ha' : a 0 + a 1 = 3 := by
    have := ha
    rw [Fin.sum_univ_two] at this
    omega
  have key : ∀ i : Fin (1 + 1), 2 ≤ a i → monomial a (1 : ZMod 5) ∈ Ideal.span (Set.range (fun i : Fin (1 + 1) =>
      X i * pderiv i ((X 0 ^ 2 + X 1 ^ 2 : MvPolynomial (Fin (1 + 1)) (ZMod 5))))) := by
    intro i hi
    have hmem : C (3 : ZMod 5) * (X i * pderiv i ((X 0 ^ 2 + X 1 ^ 2 : MvPolynomial (Fin (1 + 1)) (ZMod 5)))) ∈
      Ideal.span (Set.range (fun i : Fin (1 + 1) =>
        X i * pderiv i ((X 0 ^ 2 + X 1 ^ 2 : MvPolynomial (Fin (1 + 1)) (ZMod 5))))) :=
      Ideal.mul_mem_left _ _ (Ideal.subset_span ⟨i, rfl⟩)
    have h1 : C (3 : ZMod 5) * (X i * pderiv i ((X 0 ^ 2 + X 1 ^ 2 : MvPolynomial (Fin (1 + 1)) (ZMod 5)))) = X i ^ 2 := by
      have h6 : (C (3 : ZMod 5) * 2 : MvPolynomial (Fin (1 + 1)) (ZMod 5)) = 1 := by
        have : (2 : MvPolynomial (Fin (1 + 1)) (ZMod 5)) = C 2 := (map_ofNat C 2).symm
        rw [this, ← C_mul, ← C_1]
        congr 1
      rw [map_add, pderiv_pow, pderiv_pow]
      fin_cases i
      · simp only [Fin.zero_eta, pderiv_X_self, Nat.cast_ofNat]
        rw [pderiv_X_of_ne (by decide)]
        linear_combination X 0 ^ 2 * h6
      · simp only [Fin.mk_one, pderiv_X_self, Nat.cast_ofNat]
        rw [pderiv_X_of_ne (by decide)]
        linear_combination X 1 ^ 2 * h6
    rw [h1] at hmem
    have h2 : monomial a (1 : ZMod 5) = monomial (a - Finsupp.single i 2) 1 * X i ^ 2 := by
      rw [X_pow_eq_monomial, monomial_mul, mul_one, tsub_add_cancel_of_le]
      rw [Finsupp.single_le_iff]; exact hi
    rw [h2]
    exact Ideal.mul_mem_left _ _ hmem
  rcases (show 2 ≤ a 0 ∨ 2 ≤ a 1 by omega) with h | h
  · exact key 0 h
  · exact key 1 h

/-- `isND` accepts the conic and `isSmooth` refuses the double point. -/
example : ∃ la : RankDet (ZMod 5), RankDetOK la ∧ isND la 25 exSmooth = .ok true ∧ isSmooth la 25 exSingular = .ok false := by
  obtain ⟨la, hla⟩ := exists_rankDet (ZMod 5)
  refine ⟨la, hla, exSmooth_nd la hla, ?_⟩
  obtain ⟨b, e, -, hz⟩ := C37_isSmooth.{0} (q := 25) (by norm_num) la hla exSingular exSingular_wf.1 exSingular_wf.2.1
    exSingular_wf.2.2 (by norm_num) (small_choose rfl rfl)
  rw [e]
  congr 1
  by_contra hb
  have hb : b = true := by simpa using hb
  have := hz hb (ZMod 5) ![0, 1] (fun i => by
    show aeval _ (pderiv i (toPoly (1 + 1) exSingular)) = 0
    rw [exSingular_poly, pderiv_pow]
    simp)
  have := congrFun this 1
  simp at this

/-! ### C39 -/

section

variable {F : Type} [Field F] [DecidableEq F]

theorem slLoop_ok {la : RankDet F} {rnd : Rnd F} {n : Nat} : ∀ (t pos : Nat) {M : CMat F} {z : Nat},
    slLoop la rnd n t pos = some (M, z) → M.rows = n ∧ M.cols = n ∧ la.rank M = n
  | 0, _, M, z, h => by simp [slLoop] at h
  | t + 1, pos, M, z, h => by
    rw [slLoop] at h
    split at h
    · next h1 =>
      obtain ⟨rfl, -⟩ := Prod.mk.inj (Option.some.inj h)
      exact ⟨rfl, rfl, h1.symm⟩
    · exact slLoop_ok t _ h

theorem slLoop_some {la : RankDet F} {rnd : Rnd F} {n : Nat} : ∀ (k t pos : Nat), k < t →
    la.rank (CMat.mk' n n (fun i j => rnd.zz (pos + k * (n * n) + (i * n + j)))) = n →
    ∃ r, slLoop la rnd n t pos = some r
  | _, 0, _, hk, _ => by omega
  | 0, t + 1, pos, _, h => by
    rw [slLoop]
    rw [if_pos]
    · exact ⟨_, rfl⟩
    · rw [zero_mul, add_zero] at h; exact h.symm
  | k + 1, t + 1, pos, hk, h => by
    rw [slLoop]
    split
    · exact ⟨_, rfl⟩
    · refine slLoop_some k t _ (by omega) ?_
      have e : pos + (k + 1) * (n * n) = pos + n * n + k * (n * n) := by ring
      rw [e] at h
      exact h

theorem det_ne_zero_of_rank {n : Nat} {T : Matrix (Fin n) (Fin n) F} (h : T.rank = n) : T.det ≠ 0 := by
  obtain ⟨U, hU⟩ := (rank_eq_rows_iff T).1 h
  intro h0
  have := congrArg Matrix.det hU
  rw [Matrix.det_mul, h0, zero_mul, Matrix.det_one] at this
  exact zero_ne_one this

/-- **C39.**  Whatever the random numbers and however long the loop runs, `random_SL_matrix(n)`, `n >= 1`, is
either still drawing matrices or returns an `n x n` matrix of determinant 1; neither its assertion nor the
inversion of the determinant fails. -/
theorem C39_det_one (la : RankDet F) (hla : RankDetOK la) (rnd : Rnd F) (n : Nat) (hn : 1 ≤ n) (t : Nat) (pos : RndPos) :
    randomSL la rnd n t pos = .ok none ∨ ∃ M pos', randomSL la rnd n t pos = .ok (some (M, pos')) ∧
      M.rows = n ∧ M.cols = n ∧ (toMat M n n).det = 1 := by
  rw [randomSL]
  cases hs : slLoop la rnd n t pos.zz with
  | none => exact Or.inl rfl
  | some r =>
    obtain ⟨M, z⟩ := r
    right
    obtain ⟨hr, hc, hrank⟩ := slLoop_ok t _ hs
    have hdet : la.det M ≠ 0 := by
      rw [hla.det M n hr hc]
      apply det_ne_zero_of_rank
      rw [hla.rank, hr, hc] at hrank
      exact hrank
    have hrow : rnd.bnd pos.bnd % n < n := Nat.mod_lt _ (by omega)
    obtain ⟨row, hrow'⟩ : ∃ row, row = rnd.bnd pos.bnd % n := ⟨_, rfl⟩
    obtain ⟨res, hres⟩ : ∃ res : CMat F, res = ⟨n, n, fun i j => if i = row then (la.det M)⁻¹ * M.e i j else M.e i j⟩ := ⟨_, rfl⟩
    have hdet1 : (toMat res n n).det = 1 := by
      have e : toMat res n n = (toMat M n n).updateRow ⟨row, by omega⟩ ((la.det M)⁻¹ • (toMat M n n) ⟨row, by omega⟩) := by
        ext i j
        rw [Matrix.updateRow_apply, toMat, hres]
        simp only
        by_cases h : i.val = row
        · rw [if_pos h, if_pos (Fin.ext h), Pi.smul_apply, smul_eq_mul]
          subst h
          rfl
        · rw [if_neg h, if_neg (fun h' => h (by rw [h']))]
          rfl
      rw [e, Matrix.det_updateRow_smul, Matrix.updateRow_eq_self, ← hla.det M n hr hc, inv_mul_cancel₀ hdet]
    refine ⟨res, ⟨z, pos.bnd + 1⟩, ?_, by rw [hres], by rw [hres], hdet1⟩
    simp only
    rw [if_neg hdet, if_neg (by omega), ← hrow', ← hres, hla.det res n (by rw [hres]) (by rw [hres]), hdet1]
    simp only [decide_true, check_true, Res.bind_ok]

/-- **C39 (it does return).**  If one of the matrices drawn in the first `t` passes is invertible, the function
returns. -/
theorem C39_returns (la : RankDet F) (hla : RankDetOK la) (rnd : Rnd F) (n : Nat) (hn : 1 ≤ n) (t : Nat) (pos : RndPos)
    (k : Nat) (hk : k < t)
    (hdet : (Matrix.of (fun i j : Fin n => rnd.zz (pos.zz + k * (n * n) + (i * n + j)))).det ≠ 0) :
    ∃ M pos', randomSL la rnd n t pos = .ok (some (M, pos')) := by
  rcases C39_det_one la hla rnd n hn t pos with h | ⟨M, pos', h, -⟩
  · exfalso
    obtain ⟨r, hr⟩ := slLoop_some (la := la) (rnd := rnd) (n := n) k t pos.zz hk (by
      rw [hla.rank]
      have e : toMat (CMat.mk' n n (fun i j => rnd.zz (pos.zz + k * (n * n) + (i * n + j)))) n n =
          Matrix.of (fun i j : Fin n => rnd.zz (pos.zz + k * (n * n) + (i * n + j))) := by
        ext i j
        exact if_pos ⟨i.isLt, j.isLt⟩
      show (toMat _ n n).rank = n
      rw [e, rank_eq_rows_iff]
      exact ⟨_, Matrix.mul_nonsing_inv _ (isUnit_iff_ne_zero.2 hdet)⟩)
    obtain ⟨M, z⟩ := r
    rw [randomSL, hr] at h
    simp only at h
    split at h
    · cases h
    · split at h
      · cases h
      · rw [Res.bind_eq_ok] at h
        obtain ⟨_, -, h⟩ := h
        cases h
  · exact ⟨M, pos', h⟩

/-- A stream whose second matrix is invertible. -/
example : ∃ (la : RankDet (ZMod 5)) (rnd : Rnd (ZMod 5)), RankDetOK la ∧
    (Matrix.of (fun i j : Fin 2 => rnd.zz (0 + 1 * (2 * 2) + (i * 2 + j)))).det = 1 ∧
    (Matrix.of (fun i j : Fin 2 => rnd.zz (0 + 0 * (2 * 2) + (i * 2 + j)))).det = 0 := by
  obtain ⟨la, hla⟩ := exists_rankDet (ZMod 5)
  refine ⟨la, ⟨fun k => if k = 4 ∨ k = 7 then 1 else 0, fun _ => 1⟩, hla, ?_, ?_⟩
  · rw [Matrix.det_fin_two]; simp
  · rw [Matrix.det_fin_two]; simp

end

/-! ### C38 -/

section

variable {p : Nat} [Fact p.Prime] {q n d : Nat}

theorem fcvLoop_ok [NeZero q] (hpq : p ∣ q) {la : RankDet (ZMod p)} (hla : RankDetOK la) {f : MonMap (ZMod p)}
    (hf : WFPoly (n + 1) f) (hne : f ≠ []) (hdeg : ∀ e ∈ f, deg e.1 = d) (hd : 1 ≤ d)
    (hsize : ∀ l ≤ (n + 1) * d, (l + n).choose n < 2 ^ 63) (rnd : Rnd (ZMod p)) (t : Nat) :
    ∀ (k : Nat) (pos : RndPos) (M : CMat (ZMod p)) (tries : Nat), M.rows = n + 1 → M.cols = n + 1 →
      fcvLoop la q rnd t f (n + 1) k pos M true tries = .ok none ∨
      ∃ M' b tr, fcvLoop la q rnd t f (n + 1) k pos M true tries = .ok (some (M', b, tr)) ∧ tr ≤ tries + k ∧
        M'.rows = n + 1 ∧ M'.cols = n + 1 ∧ (b = true → tr = tries + k) ∧
        (b = false → tries < tr ∧ (toMat M' (n + 1) (n + 1)).det = 1 ∧
          DegreeInIdeal ((d - 1) * (n + 1) + 1)
            (fun i => X i * pderiv i (linSubst (toMat M' (n + 1) (n + 1)) (toPoly (n + 1) f)))) := by
  intro k
  induction k with
  | zero =>
    intro pos M tries hr hc
    exact Or.inr ⟨M, true, tries, rfl, le_refl _, hr, hc, fun _ => rfl, fun h => by cases h⟩
  | succ k ih =>
    intro pos M tries hr hc
    rw [fcvLoop, if_pos rfl]
    rcases C39_det_one la hla rnd (n + 1) (by omega) t pos with h | ⟨M', pos', h, hr', hc', hdet⟩
    · left; rw [h, Res.bind_ok]
    · rw [h, Res.bind_ok]
      simp only
      obtain ⟨g, eg, hg, hpoly⟩ := changeOfVariables_ok (by omega) f hf M' hr' hc'
      obtain ⟨hgd, hgne⟩ := changeOfVariables_KD (by omega) hf hne hdeg hr' eg
      obtain ⟨b, eb, hb⟩ := isND_ok hpq hla hg hgne hgd hd hsize
      rw [eg, Res.bind_ok, eb, Res.bind_ok]
      cases b with
      | false =>
        rcases ih pos' M' (tries + 1) hr' hc' with h1 | ⟨M2, b2, tr, h1, h2, h3, h4, h5, h6⟩
        · left; exact h1
        · right
          refine ⟨M2, b2, tr, h1, by omega, h3, h4, fun h => by have := h5 h; omega, fun h => ?_⟩
          obtain ⟨h7, h8⟩ := h6 h
          exact ⟨by omega, h8⟩
      | true =>
        right
        refine ⟨M', false, tries + 1, ?_, by omega, hr', hc', fun h => (by cases h), fun _ => ⟨by omega, hdet, ?_⟩⟩
        · cases k <;> rfl
        · have := hb.1 rfl
          rw [hpoly] at this
          exact this

/-- **C38.**  For every homogeneous polynomial, every bound `N` and every random stream,
`find_change_of_variables` (unless a call of `random_SL_matrix` never finds an invertible matrix) returns an
`(n+1) x (n+1)` matrix `M` after at most `N` random matrices: the identity, without trying any, exactly when `f`
is non-degenerate in the sense of `isND`; otherwise 0 after `N` failures; or else a matrix of determinant 1 for
which `f(Mx)` is non-degenerate. -/
theorem C38_find_change_of_variables [NeZero q] (hpq : p ∣ q) (la : RankDet (ZMod p)) (hla : RankDetOK la)
    (f : MonMap (ZMod p)) (hf : WFPoly (n + 1) f) (hne : f ≠ []) (hdeg : ∀ e ∈ f, deg e.1 = d) (hd : 1 ≤ d)
    (hsize : ∀ l ≤ (n + 1) * d, (l + n).choose n < 2 ^ 63) (rnd : Rnd (ZMod p)) (t : Nat) (N : Int) :
    findChangeOfVariables la q rnd t f N = .ok none ∨
    ∃ M tries, findChangeOfVariables la q rnd t f N = .ok (some (M, tries)) ∧ (tries : Int) ≤ max N 0 ∧
      M.rows = n + 1 ∧ M.cols = n + 1 ∧
      ((DegreeInIdeal ((d - 1) * (n + 1) + 1) (fun i => X i * pderiv i (toPoly (n + 1) f)) ∧ tries = 0 ∧
          toMat M (n + 1) (n + 1) = 1) ∨
       (¬ DegreeInIdeal ((d - 1) * (n + 1) + 1) (fun i => X i * pderiv i (toPoly (n + 1) f)) ∧
          (tries : Int) = max N 0 ∧ toMat M (n + 1) (n + 1) = 0) ∨
       (¬ DegreeInIdeal ((d - 1) * (n + 1) + 1) (fun i => X i * pderiv i (toPoly (n + 1) f)) ∧ 0 < tries ∧
          (toMat M (n + 1) (n + 1)).det = 1 ∧
          DegreeInIdeal ((d - 1) * (n + 1) + 1)
            (fun i => X i * pderiv i (linSubst (toMat M (n + 1) (n + 1)) (toPoly (n + 1) f))) ∧
          NoCommonZero.{u}
            (fun i => X i * pderiv i (linSubst (toMat M (n + 1) (n + 1)) (toPoly (n + 1) f))))) := by
  obtain ⟨b, eb, hb⟩ := isND_ok hpq hla hf hne hdeg hd hsize
  have hfun : findChangeOfVariables la q rnd t f N = (do
      let nd ← isND la q f
      match ← fcvLoop la q rnd t f (n + 1) N.toNat ⟨0, 0⟩
        (CMat.mk' (n + 1) (n + 1) (fun i j => if i = j then 1 else 0)) (!nd) 0 with
      | none => .ok none
      | some (M, notND, tries) =>
          .ok (some (if notND then CMat.mk' M.rows M.cols (fun _ _ => 0) else M, tries))) := by
    cases f with
    | nil => exact absurd rfl hne
    | cons e f =>
      obtain ⟨k, c⟩ := e
      have hk := (hf.1 (k, c) (by simp)).1
      simp only [findChangeOfVariables]
      rw [hk]
      rfl
  rw [hfun, eb, Res.bind_ok]
  cases b with
  | true =>
    right
    have hl : fcvLoop la q rnd t f (n + 1) N.toNat ⟨0, 0⟩
        (CMat.mk' (n + 1) (n + 1) (fun i j => if i = j then 1 else 0)) (!true) 0 =
        .ok (some (CMat.mk' (n + 1) (n + 1) (fun i j => if i = j then 1 else 0), false, 0)) := by
      cases N.toNat <;> rfl
    rw [hl, Res.bind_ok]
    refine ⟨CMat.mk' (n + 1) (n + 1) (fun i j => if i = j then 1 else 0), 0, rfl, by simp, rfl, rfl,
      Or.inl ⟨hb.1 rfl, rfl, ?_⟩⟩
    ext i j
    rw [Matrix.one_apply]
    refine (if_pos ⟨i.isLt, j.isLt⟩).trans ?_
    simp only [Fin.ext_iff]
  | false =>
    have hnd : ¬ DegreeInIdeal ((d - 1) * (n + 1) + 1) (fun i => X i * pderiv i (toPoly (n + 1) f)) := fun h => by
      have := hb.2 h; cases this
    rw [Bool.not_false]
    rcases fcvLoop_ok hpq hla hf hne hdeg hd hsize rnd t N.toNat ⟨0, 0⟩
      (CMat.mk' (n + 1) (n + 1) (fun i j => if i = j then 1 else 0)) 0 rfl rfl with h | ⟨M, b, tr, h, h1, h2, h3, h4, h5⟩
    · left; rw [h, Res.bind_ok]
    · right
      rw [h, Res.bind_ok]
      cases b with
      | true =>
        refine ⟨CMat.mk' M.rows M.cols (fun _ _ => 0), tr, rfl, by omega, h2, h3,
          Or.inr (Or.inl ⟨hnd, by have := h4 rfl; omega, ?_⟩)⟩
        ext i j
        exact ite_self _
      | false =>
        obtain ⟨h6, h7, h8⟩ := h5 rfl
        exact ⟨_, tr, rfl, by omega, h2, h3, Or.inr (Or.inr ⟨hnd, h6, h7, h8, noCommonZero_of_ideal (by omega) h8⟩)⟩

/-- The conic, for which the identity is returned. -/
example : ∃ la : RankDet (ZMod 5), RankDetOK la ∧ WFPoly (1 + 1) exSmooth ∧ exSmooth ≠ [] ∧
    (∀ e ∈ exSmooth, deg e.1 = (2 : Nat)) ∧ isND la 25 exSmooth = .ok true := by
  obtain ⟨la, hla⟩ := exists_rankDet (ZMod 5)
  exact ⟨la, hla, exSmooth_wf.1, exSmooth_wf.2.1, exSmooth_wf.2.2, exSmooth_nd la hla⟩

end

end Verif
