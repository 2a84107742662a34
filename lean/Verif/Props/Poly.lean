import Verif.Lemmas.Poly
import Mathlib.LinearAlgebra.Matrix.NonsingularInverse

/-!
Properties C10 and C11: linear substitutions (`tools.h:55-119`,
`tools/change_of_variables_monomial.cc`).
-/

namespace Verif

open Spec MvPolynomial

/-! ### C10 -/

/-- **C10 (substitution).**  For every commutative ring, every number `n ≥ 1` of variables, every
well-formed polynomial map `f` and every `n × n` matrix, the call returns a well-formed map whose
polynomial is `f` with `x_i` replaced by `Σ_j M i j x_j`; equivalently, its coefficient at each
exponent vector is the coefficient of that polynomial. -/
theorem C10_change_of_variables {R : Type} [CommRing R] {n : Nat} (hn : 0 < n) (f : MonMap R)
    (hf : WFPoly n f) (M : Matrix (Fin n) (Fin n) R) :
    ∃ r, changeOfVariables f (CMat.ofMatrix M) = .ok r ∧ WFPoly n r ∧
      toPoly n r = linSubst M (toPoly n f) ∧
      ∀ k, k.length = n → NonNeg k →
        MonMap.get r k = coeff (expo n k) (linSubst M (toPoly n f)) := by
  obtain ⟨r, h1, h2, h3⟩ := changeOfVariables_ok hn f hf (CMat.ofMatrix M) rfl rfl
  have h4 : toPoly n r = linSubst M (toPoly n f) := by
    rw [h3]
    congr 2
    funext i j
    exact CMat.ofMatrix_e M i j
  exact ⟨r, h1, h2, h4, fun k hk hk' => by rw [← h4, coeff_toPoly h2 hk hk']⟩

example : WFPoly 2 ([([0, 2], 1), ([1, 1], 3), ([2, 0], 5)] : MonMap Int) := by
  refine ⟨by simp [NonNeg], ?_⟩
  simp only [List.map_cons, List.map_nil, List.pairwise_cons, List.mem_cons, List.not_mem_nil,
    or_false, forall_eq_or_imp, forall_eq, List.Pairwise.nil, and_true, false_imp_iff,
    implies_true]
  exact ⟨⟨lexLt_head _ _ (by norm_num), lexLt_head _ _ (by norm_num)⟩, lexLt_head _ _ (by norm_num)⟩

theorem linSubst_comp {R : Type} [CommRing R] {n : Nat} (M M' : Matrix (Fin n) (Fin n) R)
    (f : MvPolynomial (Fin n) R) : linSubst M' (linSubst M f) = linSubst (M * M') f := by
  rw [← AlgHom.comp_apply]
  congr 1
  apply MvPolynomial.algHom_ext
  intro i
  rw [AlgHom.comp_apply]
  simp only [linSubst, aeval_X, map_sum, map_mul, Matrix.mul_apply]
  simp only [aeval_C, algebraMap_eq, Finset.mul_sum, Finset.sum_mul]
  rw [Finset.sum_comm]
  refine Finset.sum_congr rfl (fun j _ => Finset.sum_congr rfl (fun k _ => ?_))
  ring

theorem linSubst_one {R : Type} [CommRing R] {n : Nat} (f : MvPolynomial (Fin n) R) :
    linSubst (1 : Matrix (Fin n) (Fin n) R) f = f := by
  have : linSubst (1 : Matrix (Fin n) (Fin n) R) = AlgHom.id R _ := by
    apply MvPolynomial.algHom_ext
    intro i
    simp only [linSubst, aeval_X, AlgHom.id_apply]
    rw [Finset.sum_eq_single i]
    · simp
    · intro j _ hj; simp [Matrix.one_apply_ne (Ne.symm hj)]
    · simp
  rw [this]; rfl

/-- **C10 (identity, composition, inverse).**  With the identity matrix the same polynomial comes
back; substituting `M` and then `M'` gives the substitution by the product `M * M'`; if
`M * M' = 1`, substituting `M` and then `M'` gives the original polynomial back. -/
theorem C10_laws {R : Type} [CommRing R] {n : Nat} (hn : 0 < n) (f : MonMap R)
    (hf : WFPoly n f) (M M' : Matrix (Fin n) (Fin n) R) :
    (∃ r, changeOfVariables f (CMat.ofMatrix (1 : Matrix (Fin n) (Fin n) R)) = .ok r ∧
      toPoly n r = toPoly n f) ∧
    (∃ r s t, changeOfVariables f (CMat.ofMatrix M) = .ok r ∧
      changeOfVariables r (CMat.ofMatrix M') = .ok s ∧
      changeOfVariables f (CMat.ofMatrix (M * M')) = .ok t ∧
      toPoly n s = toPoly n t ∧
      (M * M' = 1 → toPoly n s = toPoly n f)) := by
  constructor
  · obtain ⟨r, h1, -, h3, -⟩ := C10_change_of_variables hn f hf 1
    exact ⟨r, h1, by rw [h3, linSubst_one]⟩
  · obtain ⟨r, h1, h2, h3, -⟩ := C10_change_of_variables hn f hf M
    obtain ⟨s, k1, -, k3, -⟩ := C10_change_of_variables hn r h2 M'
    obtain ⟨t, l1, -, l3, -⟩ := C10_change_of_variables hn f hf (M * M')
    refine ⟨r, s, t, h1, k1, l1, ?_, ?_⟩
    · rw [k3, h3, l3, linSubst_comp]
    · intro h; rw [k3, h3, linSubst_comp, h, linSubst_one]

/-- **C10 (undoing).**  For a matrix of invertible determinant the substitution can be undone. -/
theorem C10_invertible {R : Type} [CommRing R] {n : Nat} (hn : 0 < n) (f : MonMap R)
    (hf : WFPoly n f) (M : Matrix (Fin n) (Fin n) R) (hM : IsUnit M.det) :
    ∃ r s, changeOfVariables f (CMat.ofMatrix M) = .ok r ∧
      changeOfVariables r (CMat.ofMatrix M⁻¹) = .ok s ∧ toPoly n s = toPoly n f := by
  obtain ⟨-, r, s, t, h1, h2, -, -, h5⟩ := C10_laws hn f hf M M⁻¹
  exact ⟨r, s, h1, h2, h5 (Matrix.mul_nonsing_inv M hM)⟩

example : changeOfVariables ([([0, 2], 1), ([1, 1], 3)] : MonMap Int) (CMat.ofMatrix !![1, 1; 0, 1])
    = .ok [([0, 2], 4), ([1, 1], 3), ([2, 0], 0)] := by decide +kernel

/-- **C10 (misuse).**  A non-square matrix, or an exponent vector of the wrong length, stops the
program. -/
theorem C10_mismatch_stops {R : Type} [CommRing R] (f : MonMap R) (M : CMat R) :
    (M.rows ≠ M.cols → changeOfVariables f M = .error .assertFail) ∧
    (∀ k c, M.rows = M.cols → k.length ≠ M.rows →
      changeOfVariables ((k, c) :: f) M = .error .assertFail) := by
  constructor
  · intro h; simp [changeOfVariables, h]
  · intro k c h hk
    simp only [changeOfVariables, h, decide_true, check_true, Res.bind_ok, List.foldlM_cons]
    simp [substTerm, ← h, hk]

example : (CMat.ofMatrix !![1, 1; 0, 1] : CMat Int).rows = 2 ∧ [(1 : Int), 2, 3].length ≠ 2 := by
  decide

/-! ### C11 -/

/-- **C11 (expansion).**  For all `u ≥ 0` and all `v` of equal length whose binomials fit 63 bits,
the returned map denotes `∏_i (x_i + v_i x)^(u_i)` in the variables `x_0, ..., x_{n-1}, x`. -/
theorem C11_shifted_monomial_partial (u v : IVec) (hlen : u.length = v.length) (hu : NonNeg u)
    (hb : ∀ a ∈ u, ∀ j, a.toNat.choose j < 2 ^ 63) :
    ∃ r, changeOfVariablesMonomial u v = .ok r ∧ WFPoly (u.length + 1) r ∧
      toPoly (u.length + 1) r = ∏ i : Fin u.length,
        (X i.castSucc + C (v.getD i 0) * X (Fin.last u.length)) ^ (u.getD i 0).toNat := by
  set n := u.length with hn
  have h0 : WFPoly (n + 1) ([(List.replicate (n + 1) 0, 1)] : MonMap Int) := by
    refine ⟨?_, by simp⟩
    intro e he
    rw [List.mem_singleton] at he
    subst he
    exact ⟨by simp, nonNeg_replicate _⟩
  obtain ⟨r, h1, h2, h3⟩ := forRange_inv (n := n)
    (s := ([(List.replicate (n + 1) 0, 1)] : MonMap Int))
    (f := fun i H => do
      let X ← monomialExtended n i (u.getD i 0) (v.getD i 0)
      mulMaps H X)
    (fun i H => WFPoly (n + 1) H ∧
      toPoly (n + 1) H = ∏ i' ∈ Finset.range i, if h : i' < n then
        (X (Fin.castSucc ⟨i', h⟩) + C (v.getD i' 0) * X (Fin.last n)) ^ (u.getD i' 0).toNat else 1)
    ⟨h0, by rw [toPoly_cons, expo_zero]; simp⟩
    (by
      intro i H hi ⟨w, e⟩
      have hmem : u.getD i 0 ∈ u := by
        rw [List.getD_eq_getElem?_getD, List.getElem?_eq_getElem (by omega)]
        exact List.getElem_mem _
      obtain ⟨Xm, a1, a2, a3⟩ := monomialExtended_ok n ⟨i, hi⟩ (u.getD i 0) (v.getD i 0)
        (hu _ hmem) (hb _ hmem)
      obtain ⟨r, b1, b2, b3⟩ := mulMaps_ok (Nat.succ_pos n) w a2
      refine ⟨r, ?_, b2, ?_⟩
      · simp only at a1
        rw [a1]; exact b1
      · rw [b3, e, a3, Finset.prod_range_succ, dif_pos hi])
  refine ⟨r, ?_, h2, ?_⟩
  · unfold changeOfVariablesMonomial
    rw [decide_eq_true (show u.length = v.length from hn ▸ hlen)]
    exact h1
  · rw [h3, Finset.prod_range]
    exact Finset.prod_congr rfl (fun i _ => by rw [dif_pos i.2])

/-- **C11 (evaluation).**  Evaluating the returned map at any point, with coefficients read in any
commutative ring, gives the value of the product. -/
theorem C11_evaluates_partial {S : Type} [CommRing S] (u v : IVec) (hlen : u.length = v.length)
    (hu : NonNeg u) (hb : ∀ a ∈ u, ∀ j, a.toNat.choose j < 2 ^ 63) (x : Fin u.length → S) (y : S) :
    ∃ r, changeOfVariablesMonomial u v = .ok r ∧
      (r.map (fun e => (e.2 : S) * ∏ i : Fin (u.length + 1),
          (Fin.snoc (α := fun _ => S) x y i) ^ (e.1.getD i 0).toNat)).sum
        = ∏ i : Fin u.length, (x i + (v.getD i 0 : S) * y) ^ (u.getD i 0).toNat := by
  obtain ⟨r, h1, -, h3⟩ := C11_shifted_monomial_partial u v hlen hu hb
  refine ⟨r, h1, ?_⟩
  have := congrArg (eval₂Hom (Int.castRingHom S) (Fin.snoc (α := fun _ => S) x y)) h3
  rw [toPoly, map_list_sum, List.map_map, map_prod] at this
  have e1 : List.map (⇑(eval₂Hom (Int.castRingHom S) (Fin.snoc (α := fun _ => S) x y)) ∘
      fun e => monomial (expo (u.length + 1) e.1) e.2) r
      = r.map (fun e => (e.2 : S) * ∏ i : Fin (u.length + 1),
          (Fin.snoc (α := fun _ => S) x y i) ^ (e.1.getD i 0).toNat) := by
    apply List.map_congr_left
    intro e _
    simp only [Function.comp_apply, coe_eval₂Hom, eval₂_monomial]
    rw [Finsupp.prod_fintype _ _ (by simp)]
    rfl
  rw [e1] at this
  rw [this]
  refine Finset.prod_congr rfl (fun i _ => ?_)
  rw [map_pow, map_add, map_mul, coe_eval₂Hom, eval₂_X, eval₂_X, eval₂_C, Fin.snoc_castSucc,
    Fin.snoc_last]
  rfl

example : changeOfVariablesMonomial [2, 1] [3, -1]
    = .ok [([0, 0, 3], -9), ([0, 1, 2], 9), ([1, 0, 2], -6), ([1, 1, 1], 6), ([2, 0, 1], -1),
        ([2, 1, 0], 1)] := by decide +kernel
example : ∀ a ∈ ([2, 1] : IVec), ∀ j, a.toNat.choose j < 2 ^ 63 := by
  intro a ha j
  have h1 : a.toNat ≤ 2 := by
    simp only [List.mem_cons, List.not_mem_nil, or_false] at ha
    rcases ha with rfl | rfl <;> decide
  calc a.toNat.choose j ≤ 2 ^ a.toNat := Nat.choose_le_two_pow _ _
    _ ≤ 2 ^ 2 := Nat.pow_le_pow_right (by norm_num) h1
    _ < 2 ^ 63 := by norm_num

end Verif
