import Verif.Lemmas.Padic
import Verif.Lemmas.LinAlgExists
import Mathlib.Tactic.NormNum.Prime

/-!
Properties C19 and C20: `solve_system` over a prime field and its p-adic lift.
-/

namespace Verif

open Spec Finset

local instance : Fact (Nat.Prime 7) := ⟨by norm_num⟩

/-- The unit vector classes of a solution span the cokernel. -/
theorem solves_span {F : Type} [Field F] {T : CMat F} {B : List Nat} {U : CMat F} (h : Solves T B U) :
    Submodule.span F (Set.range (fun k : Fin B.length =>
      (LinearMap.range (toMat T T.rows T.cols).mulVecLin).mkQ (unitVec F T.rows (B.get k)))) = ⊤ := by
  rw [eq_top_iff]
  rintro q -
  obtain ⟨z, rfl⟩ := Submodule.mkQ_surjective _ q
  -- coordinates of z
  have hz : ∀ a : Fin T.rows, z a = ∑ l : Fin T.cols, T.e a l * (∑ b : Fin T.rows, U.e l b * z b)
      + ∑ k : Fin B.length, (∑ b : Fin T.rows, U.e (T.cols + k) b * z b) * unitVec F T.rows (B.get k) a := by
    intro a
    have h1 : z a = ∑ b : Fin T.rows, (1 : Matrix (Fin T.rows) (Fin T.rows) F) a b * z b := by
      simp [Matrix.one_apply]
    rw [h1, ← h.eq]
    simp only [augment_mul_apply, Finset.sum_range, add_mul, Finset.sum_add_distrib, Finset.sum_mul,
      Finset.mul_sum]
    congr 1
    · rw [Finset.sum_comm]
      refine Finset.sum_congr rfl (fun l _ => Finset.sum_congr rfl (fun b _ => ?_))
      ring
    · rw [Finset.sum_comm]
      refine Finset.sum_congr rfl (fun k _ => Finset.sum_congr rfl (fun b _ => ?_))
      rw [unitVec, List.getD_eq_getElem?_getD, List.getElem?_eq_getElem k.isLt]
      simp only [Option.getD_some, List.get_eq_getElem]
      split <;> simp
  have hz' : z = (toMat T T.rows T.cols).mulVecLin (fun l => ∑ b : Fin T.rows, U.e l b * z b)
      + ∑ k : Fin B.length, (∑ b : Fin T.rows, U.e (T.cols + k) b * z b) • unitVec F T.rows (B.get k) := by
    funext a
    rw [hz a]
    simp [Matrix.mulVec, dotProduct, toMat]
  rw [hz', map_add]
  apply Submodule.add_mem
  · have : (LinearMap.range (toMat T T.rows T.cols).mulVecLin).mkQ
        ((toMat T T.rows T.cols).mulVecLin (fun l => ∑ b : Fin T.rows, U.e l b * z b)) = 0 := by
      rw [Submodule.mkQ_apply, Submodule.Quotient.mk_eq_zero]
      exact ⟨_, rfl⟩
    rw [this]
    exact Submodule.zero_mem _
  · rw [map_sum]
    refine Submodule.sum_mem _ (fun k _ => ?_)
    rw [map_smul]
    exact Submodule.smul_mem _ _ (Submodule.subset_span ⟨k, rfl⟩)

/-- **C19.**  For every field (in particular `F_p`), every matrix `T` of every shape, every
elimination routine meeting the contract and both implementations, `solve_system_zz_p` returns
`(B, U)`: `B` is increasing, `(T | J) * U` is the identity, `|B| = rows - rank T`, and the classes of
the unit vectors `e_b` form a basis of the cokernel of `T`. -/
theorem C19_solve_system {F : Type} [Field F] [DecidableEq F] (la : LinAlg F) (hla : LinAlgOK la)
    (flint : Bool) (T : CMat F) :
    ∃ B U, solveSystemZZp la flint T = .ok (B, U) ∧ Solves T B U ∧
      B.length + (toMat T T.rows T.cols).rank = T.rows ∧
      CokernelBasis (toMat T T.rows T.cols) B := by
  obtain ⟨B, U, e, hs, hr, -, hi⟩ := solveSystemZZp_ok la hla flint T
  refine ⟨B, U, e, hs, hr, ?_, solves_span hs⟩
  rw [Fintype.linearIndependent_iff]
  intro g hg k
  have h0 : (LinearMap.range (toMat T T.rows T.cols).mulVecLin).mkQ
      (∑ k : Fin B.length, g k • unitVec F T.rows (B.get k)) = 0 := by
    rw [map_sum, ← hg]
    exact Finset.sum_congr rfl (fun k _ => map_smul _ _ _)
  rw [Submodule.mkQ_apply, Submodule.Quotient.mk_eq_zero] at h0
  obtain ⟨x, hx⟩ := h0
  have := hi (fun l => if h : l < T.cols then - x ⟨l, h⟩ else 0)
    (fun k => if h : k < B.length then g ⟨k, h⟩ else 0) (by
      intro a ha
      have hxa := congrFun hx ⟨a, ha⟩
      rw [Finset.sum_range, Finset.sum_range]
      simp only [Matrix.mulVecLin_apply, Matrix.mulVec, dotProduct, Finset.sum_apply, Pi.smul_apply,
        smul_eq_mul, toMat] at hxa
      have e1 : (∑ i : Fin T.cols, T.e a i * if h : (i : Nat) < T.cols then - x ⟨i, h⟩ else 0)
          = - ∑ i : Fin T.cols, T.e a i * x i := by
        rw [← Finset.sum_neg_distrib]
        refine Finset.sum_congr rfl (fun i _ => ?_)
        rw [dif_pos i.isLt, mul_neg]
      rw [e1, hxa, neg_add_eq_zero]
      refine Finset.sum_congr rfl (fun k _ => ?_)
      rw [unitVec, List.getD_eq_getElem?_getD, List.getElem?_eq_getElem k.isLt, dif_pos k.isLt]
      simp only [Option.getD_some, List.get_eq_getElem]
      split <;> simp) k k.isLt
  simpa [k.isLt] using this

/-- The contract is met by some routines over `F_7`, so the theorem speaks about something. -/
example : ∃ la : LinAlg (ZMod 7), LinAlgOK la := exists_linAlg (ZMod 7)

/-- **C19 (which rows).**  `B` lists exactly the rows of `T` which are linear combinations of the rows
above them; it depends on `T` only, not on the implementation or the elimination routine. -/
theorem C19_basis_canonical {F : Type} [Field F] [DecidableEq F] (la : LinAlg F) (hla : LinAlgOK la)
    (flint : Bool) (T : CMat F) (B : List Nat) (U : CMat F)
    (h : solveSystemZZp la flint T = .ok (B, U)) (b : Nat) :
    b ∈ B ↔ b < T.rows ∧ DependentRow T b := by
  obtain ⟨B', U', e, -, -, hb, -⟩ := solveSystemZZp_ok la hla flint T
  rw [e] at h
  cases h
  exact hb b

/-- Two increasing lists with the same members are equal. -/
theorem sorted_ext {l l' : List Nat} (h : l.Pairwise (· < ·)) (h' : l'.Pairwise (· < ·))
    (hm : ∀ b, b ∈ l ↔ b ∈ l') : l = l' :=
  List.Perm.eq_of_pairwise' h h'
    ((List.perm_ext_iff_of_nodup (h.imp fun h => Nat.ne_of_lt h) (h'.imp fun h => Nat.ne_of_lt h)).2 hm)

/-- The rows of `(1 2; 2 4; 0 1)` over `F_7`: the second depends on the first. -/
example : DependentRow (⟨3, 2, fun i j => (([[1, 2], [2, 4], [0, 1]] : List (List (ZMod 7))).getD i []).getD j 0⟩ :
      CMat (ZMod 7)) 1 := by
  refine ⟨fun _ => 2, fun j hj => ?_⟩
  simp only at hj
  interval_cases j <;> decide

/-- **C20.**  For every prime `p`, every `N`, every matrix `T` over `Z/p^N`, every elimination routine
over `F_p` meeting the contract and both implementations, `solve_system_padic` with precision `N`
returns `(B, U)` with `(T | J) * U` equal to the identity modulo `p^N`.  (`precision` may exceed `N`.) -/
theorem C20_padic {p N : Nat} [Fact p.Prime] (la : LinAlg (ZMod p)) (hla : LinAlgOK la) (flint : Bool)
    (T : CMat (ZMod (p ^ N))) (precision : Nat) (hp : N ≤ precision) :
    ∃ B U, solveSystemPadic la flint T precision = .ok (B, U) ∧ Solves T B U := by
  obtain ⟨B, U, e, h, -⟩ := solveSystemPadic_ok la hla flint T precision hp
  exact ⟨B, U, e, h⟩

/-- A precision which is not a power of two: the contract can be met over `F_7`, and `5 <= 5`. -/
example : (∃ la : LinAlg (ZMod 7), LinAlgOK la) ∧ 5 ≤ 5 := ⟨exists_linAlg (ZMod 7), le_refl _⟩

/-- **C20 (same B).**  `B` lists exactly the rows which depend, modulo `p`, on the rows above them.
So it does not depend on the implementation or the routine. -/
theorem C20_same_basis {p N : Nat} [Fact p.Prime] (la la' : LinAlg (ZMod p)) (hla : LinAlgOK la)
    (hla' : LinAlgOK la') (flint flint' : Bool) (T : CMat (ZMod (p ^ N))) (precision : Nat)
    (hp : N ≤ precision) (B B' : List Nat) (U U' : CMat (ZMod (p ^ N)))
    (h : solveSystemPadic la flint T precision = .ok (B, U))
    (h' : solveSystemPadic la' flint' T precision = .ok (B', U')) :
    B = B' ∧ ∀ b, b ∈ B ↔ b < T.rows ∧ DependentRow (T.map (fun x => (x.val : ZMod p))) b := by
  have key : ∀ (la : LinAlg (ZMod p)) (_ : LinAlgOK la) (flint : Bool) (B : List Nat)
      (U : CMat (ZMod (p ^ N))), solveSystemPadic la flint T precision = .ok (B, U) →
      B.Pairwise (· < ·) ∧
      ∀ b, b ∈ B ↔ b < T.rows ∧ DependentRow (T.map (fun x => (x.val : ZMod p))) b := by
    intro la hla flint B U h
    obtain ⟨B1, U1, e1, hs, h1⟩ := solveSystemPadic_ok la hla flint T precision hp
    rw [e1] at h
    cases h
    refine ⟨hs.sorted, ?_⟩
    by_cases hn : T.cols = 0
    · have hB : B = List.range T.rows := by
        unfold solveSystemPadic at e1
        rw [if_pos hn] at e1
        cases e1
        rfl
      intro b
      rw [hB, List.mem_range]
      refine ⟨fun hb => ⟨hb, fun _ => 0, fun j hj => ?_⟩, fun hb => hb.1⟩
      have : j < T.cols := hj
      omega
    · obtain ⟨V, hV⟩ := h1 (by omega)
      exact C19_basis_canonical la hla true _ B V hV
  have k1 := key la hla flint B U h
  have k2 := key la' hla' flint' B' U' h'
  exact ⟨sorted_ext k1.1 k2.1 (fun b => by rw [k1.2, k2.2]), k1.2⟩

example : (∃ la : LinAlg (ZMod 7), LinAlgOK la) ∧ 3 ≤ 4 := ⟨exists_linAlg (ZMod 7), by norm_num⟩

end Verif
