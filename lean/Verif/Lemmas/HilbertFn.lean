import Mathlib.RingTheory.Nullstellensatz
import Mathlib.FieldTheory.IsAlgClosed.AlgebraicClosure
import Verif.Lemmas.CompleteInt
import Verif.Lemmas.Smooth

/-!
The rank of a relation matrix is the dimension of a piece of an ideal.  So the number of rows left over by the solver
is a value of a Hilbert function.
-/

namespace Verif

open Spec MvPolynomial

/-! ### The rank of a relation matrix -/

section

variable {F : Type} [Field F] {n : Nat}

theorem combo_mat {l k : ℕ} {L S : List IVec} (hkl : k ≤ l) (hL : IsTable n l L)
    (hS : IsTable n ((l : ℤ) - k) S) (g : Fin (n + 1) → MvPolynomial (Fin (n + 1)) F)
    (hg : ∀ i, (g i).IsHomogeneous k) {T : CMat F}
    (hT : ∀ r (i : Fin (n + 1)) j, r < L.length → j < S.length →
      T.e r (i.val * S.length + j)
        = coeff (expo (n + 1) (L.getD r [])) (xpow F (ev n (S.getD j [])) * g i)) (v : ℕ → F) :
    combo n L (fun r => ∑ j ∈ Finset.range ((n + 1) * S.length), T.e r j * v j)
      = ∑ i : Fin (n + 1), combo n S (fun s => v (i.val * S.length + s)) * g i := by
  have hS' : IsTable n ((l - k : ℕ) : ℤ) S := by rw [Nat.cast_sub hkl]; exact hS
  have hhom : (∑ i : Fin (n + 1), combo n S (fun s => v (i.val * S.length + s)) * g i).IsHomogeneous l := by
    refine IsHomogeneous.sum _ _ _ (fun i _ => ?_)
    have : l = (l - k) + k := by omega
    rw [this]
    exact (combo_isHomogeneous hS' _).mul (hg i)
  rw [← combo_coeff hL hhom]
  apply combo_congr
  intro r hr
  rw [coeff_sum, ← sum_blocks, Finset.sum_range]
  refine Finset.sum_congr rfl (fun i _ => ?_)
  rw [combo, Finset.sum_mul, coeff_sum]
  refine Finset.sum_congr rfl (fun j hj => ?_)
  rw [smul_mul_assoc, coeff_smul, ← hT r i j hr (Finset.mem_range.1 hj), smul_eq_mul, mul_comm]

theorem firstIdeal_all (g : Fin (n + 1) → MvPolynomial (Fin (n + 1)) F) :
    firstIdeal g (n + 1) = Ideal.span (Set.range g) := by
  rw [firstIdeal]
  congr 1
  ext x
  constructor
  · rintro ⟨i, -, rfl⟩; exact ⟨i, rfl⟩
  · rintro ⟨i, rfl⟩; exact ⟨i, i.isLt, rfl⟩

/-- The rank of the matrix of `(H_i) ↦ Σ H_i g_i` into degree `l`. -/
theorem rank_idealDeg {l k : ℕ} {L S : List IVec} (hkl : k ≤ l) (hL : IsTable n l L)
    (hS : IsTable n ((l : ℤ) - k) S) (g : Fin (n + 1) → MvPolynomial (Fin (n + 1)) F)
    (hg : ∀ i, (g i).IsHomogeneous k) {T : CMat F} (hTr : T.rows = L.length) (hTc : T.cols = (n + 1) * S.length)
    (hT : ∀ r (i : Fin (n + 1)) j, r < L.length → j < S.length →
      T.e r (i.val * S.length + j)
        = coeff (expo (n + 1) (L.getD r [])) (xpow F (ev n (S.getD j [])) * g i)) :
    (toMat T T.rows T.cols).rank = Module.finrank F (idealDeg g (n + 1) l) := by
  have hS' : IsTable n ((l - k : ℕ) : ℤ) S := by rw [Nat.cast_sub hkl]; exact hS
  rw [hTr, hTc, Matrix.rank, ← finrank_map_inj (comboMap_injective hL)
    (LinearMap.range (toMat T L.length ((n + 1) * S.length)).mulVecLin)]
  have hval : ∀ v : ℕ → F, comboMap F n L ((toMat T L.length ((n + 1) * S.length)).mulVecLin (fun j => v j))
      = ∑ i : Fin (n + 1), combo n S (fun s => v (i.val * S.length + s)) * g i := by
    intro v
    rw [← combo_mat hkl hL hS g hg hT v, ← comboMap_apply]
    congr 1
    funext r
    rw [Finset.sum_range]
    rfl
  have key : (LinearMap.range (toMat T L.length ((n + 1) * S.length)).mulVecLin).map (comboMap F n L)
      = idealDeg g (n + 1) l := by
    ext w
    constructor
    · rintro ⟨_, ⟨v, rfl⟩, rfl⟩
      obtain ⟨v', hv⟩ : ∃ v' : ℕ → F, v = fun j : Fin ((n + 1) * S.length) => v' j := by
        refine ⟨fun j => if h : j < (n + 1) * S.length then v ⟨j, h⟩ else 0, ?_⟩
        funext j
        simp only [j.isLt, dif_pos]
      rw [hv, hval]
      refine mem_idealDeg.2 ⟨mem_firstIdeal.2 ⟨_, fun i hi => absurd i.isLt (by omega), rfl⟩, ?_⟩
      refine IsHomogeneous.sum _ _ _ (fun i _ => ?_)
      have : l = (l - k) + k := by omega
      rw [this]
      exact (combo_isHomogeneous hS' _).mul (hg i)
    · intro hw
      obtain ⟨a, -, hah, -, rfl⟩ := mem_firstIdeal_homog hg (mem_idealDeg.1 hw).2 (mem_idealDeg.1 hw).1
      obtain ⟨v, hv⟩ : ∃ v : ℕ → F, ∀ (i : Fin (n + 1)) s, s < S.length → v (i.val * S.length + s)
          = coeff (expo (n + 1) (S.getD s [])) (a i) := by
        refine ⟨fun j => if hj : j / S.length < n + 1 then
          coeff (expo (n + 1) (S.getD (j % S.length) [])) (a ⟨j / S.length, hj⟩) else 0, ?_⟩
        intro i s hs
        have hdiv : (i.val * S.length + s) / S.length = i.val := by
          rw [mul_comm, Nat.mul_add_div (by omega), Nat.div_eq_of_lt hs, add_zero]
        have hmod : (i.val * S.length + s) % S.length = s := by
          rw [mul_comm, Nat.mul_add_mod, Nat.mod_eq_of_lt hs]
        simp only [hdiv, hmod, i.isLt, dif_pos]
      refine ⟨_, ⟨fun j => v j, rfl⟩, ?_⟩
      rw [hval]
      refine Finset.sum_congr rfl (fun i _ => ?_)
      rw [combo_congr (hv i), combo_coeff hS' (hah i)]
  rw [key]

/-! ### No common zero -/

theorem pow_mem_of_noCommonZero {g : Fin (n + 1) → MvPolynomial (Fin (n + 1)) F} (h : NoCommonZero.{0} g) :
    ∃ M, ∀ i, X i ^ M ∈ Ideal.span (Set.range g) := by
  have h1 : ∀ i, ∃ M, X i ^ M ∈ Ideal.span (Set.range g) := by
    intro i
    have : X i ∈ (Ideal.span (Set.range g)).radical := by
      rw [← vanishingIdeal_zeroLocus_eq_radical (K := AlgebraicClosure F)]
      intro x hx
      have hx0 := h (AlgebraicClosure F) x (fun j => hx _ (Ideal.subset_span ⟨j, rfl⟩))
      rw [aeval_X, hx0]
      rfl
    exact this
  choose M hM using h1
  refine ⟨∑ i, M i, fun i => ?_⟩
  have : M i ≤ ∑ i, M i := Finset.single_le_sum (f := M) (fun _ _ => Nat.zero_le _) (Finset.mem_univ i)
  obtain ⟨c, hc⟩ := Nat.exists_eq_add_of_le this
  rw [hc, pow_add]
  exact Ideal.mul_mem_right _ _ (hM i)

theorem natDegree_geom_pow (e m : ℕ) :
    ((∑ i ∈ Finset.range e, (Polynomial.X : Polynomial ℤ) ^ i) ^ m).natDegree ≤ m * (e - 1) := by
  refine le_trans Polynomial.natDegree_pow_le (Nat.mul_le_mul_left _ ?_)
  apply Polynomial.natDegree_sum_le_of_forall_le
  intro j hj
  rw [Polynomial.natDegree_X_pow]
  have := Finset.mem_range.1 hj; omega

/-- If the forms have no common zero, their ideal contains everything from degree `(e-1)(n+1)+1` on. -/
theorem degreeInIdeal_of_noCommonZero {e l : ℕ} {g : Fin (n + 1) → MvPolynomial (Fin (n + 1)) F}
    (hg : ∀ i, (g i).IsHomogeneous e) (he : 1 ≤ e) (h : NoCommonZero.{0} g) (hl : (e - 1) * (n + 1) < l) :
    DegreeInIdeal l g := by
  obtain ⟨M, hM⟩ := pow_mem_of_noCommonZero h
  have h1 := quotDim_eq hg he hM l
  rw [Polynomial.coeff_eq_zero_of_natDegree_lt (lt_of_le_of_lt (natDegree_geom_pow e (n + 1))
    (by rw [mul_comm]; exact hl)), quotDim] at h1
  have h2 : idealDeg g (n + 1) l = homogeneousSubmodule (Fin (n + 1)) F l := by
    apply Submodule.eq_of_le_of_finrank_eq (idealDeg_le g (n + 1) l)
    omega
  intro a ha
  have h3 : monomial a (1 : F) ∈ homogeneousSubmodule (Fin (n + 1)) F l :=
    isHomogeneous_monomial _ (by rw [Finsupp.degree_eq_sum]; exact ha)
  rw [← h2] at h3
  have := (mem_idealDeg.1 h3).1
  rwa [firstIdeal_all] at this

theorem noCommonZero_iff {e l : ℕ} {g : Fin (n + 1) → MvPolynomial (Fin (n + 1)) F}
    (hg : ∀ i, (g i).IsHomogeneous e) (he : 1 ≤ e) (hl : (e - 1) * (n + 1) < l) :
    DegreeInIdeal l g ↔ NoCommonZero.{0} g :=
  ⟨fun h => noCommonZero_of_ideal (by omega) h, fun h => degreeInIdeal_of_noCommonZero hg he h hl⟩

end

/-! ### The rows left over by the solver -/

section

variable {p N : ℕ} [Fact p.Prime] {n : ℕ} {g : Fin (n + 1) → MvPolynomial (Fin (n + 1)) (ZMod (p ^ N))}

theorem table_nonempty {l : ℕ} {S : List IVec} (hS : IsTable n (l : ℤ) S) : 0 < S.length := by
  rw [hS.eq (comps_isTable n l), comps_length]
  exact Nat.choose_pos (by omega)

/-- The number of rows left over is the dimension of a piece of the quotient modulo `p`. -/
theorem padic_length (hN : 1 ≤ N) {l k : ℕ} {L S : List IVec} (hL : IsTable n l L)
    (hS : (k ≤ l ∧ IsTable n ((l : ℤ) - k) S) ∨ (l < k ∧ S = []))
    (hg : ∀ i, (g i).IsHomogeneous k) {T : CMat (ZMod (p ^ N))} (hTr : T.rows = L.length)
    (hTc : T.cols = (n + 1) * S.length)
    (hT : ∀ r (i : Fin (n + 1)) j, r < L.length → j < S.length →
      T.e r (i.val * S.length + j)
        = coeff (expo (n + 1) (L.getD r [])) (xpow (ZMod (p ^ N)) (ev n (S.getD j [])) * g i))
    {la : LinAlg (ZMod p)} (hla : LinAlgOK la) {flint : Bool} {precision : ℕ}
    {B : List ℕ} {U : CMat (ZMod (p ^ N))} (h : solveSystemPadic la flint T precision = .ok (B, U)) :
    (B.length : ℤ) = quotDim (fun i => MvPolynomial.map (redMod p N hN) (g i)) (n + 1) l := by
  have hg' : ∀ i, (MvPolynomial.map (redMod p N hN) (g i)).IsHomogeneous k := fun i => (hg i).map _
  rw [quotDim, finrank_forms hL]
  rcases hS with ⟨hkl, hS⟩ | ⟨hkl, hS⟩
  · have hS' : IsTable n ((l - k : ℕ) : ℤ) S := by rw [Nat.cast_sub hkl]; exact hS
    have hpos := table_nonempty hS'
    have hc : 0 < T.cols := by rw [hTc]; positivity
    obtain ⟨B1, U1, e1, -, hr, -, -⟩ := solveSystemZZp_ok la hla true (T.map (fun x => (x.val : ZMod p)))
    have hBB : B1 = B := by
      rw [solveSystemPadic, if_neg (by omega), e1, Res.bind_ok] at h
      simp only at h
      split at h
      · exact congrArg Prod.fst (Except.ok.inj h)
      · exact congrArg Prod.fst (Except.ok.inj h)
    subst hBB
    rw [rank_idealDeg hkl hL hS (fun i => MvPolynomial.map (redMod p N hN) (g i)) hg' (T := T.map (fun x => (x.val : ZMod p)))
      hTr hTc (by
        intro r i j hr hj
        have hc : i.val * S.length + j < T.cols := by rw [hTc]; exact rowMajor_lt i.isLt hj
        have e1 : xpow (ZMod p) (ev n (S.getD j [])) = MvPolynomial.map (redMod p N hN) (xpow (ZMod (p ^ N)) (ev n (S.getD j []))) := by
          rw [xpow_ev (hS.tuple hj).2.1, xpow_ev (hS.tuple hj).2.1, map_monomial, map_one (redMod p N hN)]
        rw [e1, ← map_mul, coeff_map, ← hT r i j hr hj, redMod_val]
        simp only [CMat.map, CMat.mk']
        rw [if_pos ⟨by rw [hTr]; exact hr, hc⟩])] at hr
    have : (T.map (fun x => (x.val : ZMod p))).rows = L.length := hTr
    rw [this] at hr
    omega
  · have hc : T.cols = 0 := by rw [hTc, hS]; simp
    rw [idealDeg_small hg' hkl, finrank_bot]
    rw [solveSystemPadic, if_pos hc] at h
    have := congrArg (fun x => x.1) (Except.ok.inj h)
    simp only at this
    rw [← this, List.length_range, hTr]; simp

end

end Verif
