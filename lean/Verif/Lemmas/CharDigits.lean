import Mathlib.LinearAlgebra.Matrix.Charpoly.Coeff
import Mathlib.NumberTheory.Padics.PadicVal.Basic
import Verif.Spec.Digits
import Verif.Props.DeRham

/-!
How many digits of the characteristic polynomial are determined by the digits of a matrix whose columns are divisible by
powers of `p` (C77).
-/

namespace Verif

open Spec Finset

section det

variable {R : Type*} [CommRing R] {ι : Type*} [Fintype ι] [DecidableEq ι]

theorem dvd_det_cols (x : R) (M : Matrix ι ι R) (c : ι → ℕ) (h : ∀ i j, x ^ c j ∣ M i j) : x ^ (∑ j, c j) ∣ M.det := by
  choose N hN using h
  have hM : M = Matrix.of (fun i j => x ^ c j * N i j) := by ext i j; exact hN i j
  have h := Matrix.det_mul_row (fun j => x ^ c j) (Matrix.of N)
  rw [Finset.prod_pow_eq_pow_sum] at h
  rw [hM]
  exact ⟨_, h⟩

/-- Changing the columns one by one. -/
theorem dvd_det_sub (x : R) (A B : Matrix ι ι R) (a r : ι → ℕ) (T : ℕ) (hA : ∀ i j, x ^ a j ∣ A i j)
    (hB : ∀ i j, x ^ a j ∣ B i j) (hr : ∀ i j, x ^ r j ∣ A i j - B i j) (hT : ∀ j, T ≤ r j + ∑ i ∈ univ.erase j, a i) :
    x ^ T ∣ A.det - B.det := by
  have key : ∀ s : Finset ι, x ^ T ∣ A.det - (Matrix.of (fun i j => if j ∈ s then B i j else A i j)).det := by
    intro s
    induction s using Finset.induction_on with
    | empty =>
      have e : (Matrix.of (fun i j => if j ∈ (∅ : Finset ι) then B i j else A i j)) = A := by ext i j; simp
      rw [e, sub_self]; exact dvd_zero _
    | insert j s hj ih =>
      set C : Matrix ι ι R := Matrix.of (fun i j => if j ∈ s then B i j else A i j) with hC
      have e1 : C = C.updateCol j ((fun i => A i j - B i j) + fun i => B i j) := by
        ext i k
        by_cases hk : k = j
        · subst hk
          rw [Matrix.updateCol_self, hC, Matrix.of_apply, if_neg hj]
          simp
        · rw [Matrix.updateCol_ne hk]
      have e2 : (Matrix.of (fun i k => if k ∈ insert j s then B i k else A i k)) = C.updateCol j (fun i => B i j) := by
        ext i k
        by_cases hk : k = j
        · subst hk
          rw [Matrix.updateCol_self, Matrix.of_apply, if_pos (Finset.mem_insert_self _ _)]
        · rw [Matrix.updateCol_ne hk, hC, Matrix.of_apply, Matrix.of_apply]
          simp [Finset.mem_insert, hk]
      have e3 : C.det - (C.updateCol j (fun i => B i j)).det = (C.updateCol j (fun i => A i j - B i j)).det := by
        conv_lhs => rw [e1]
        rw [Matrix.det_updateCol_add, Matrix.updateCol_idem]
        ring
      have e4 : x ^ T ∣ (C.updateCol j (fun i => A i j - B i j)).det := by
        refine (pow_dvd_pow x (hT j)).trans ?_
        have h1 := dvd_det_cols x (C.updateCol j (fun i => A i j - B i j)) (fun k => if k = j then r j else a k) (fun i k => by
          by_cases hk : k = j
          · subst hk
            rw [Matrix.updateCol_self, if_pos rfl]; exact hr i k
          · rw [Matrix.updateCol_ne hk, if_neg hk, hC, Matrix.of_apply]
            split
            · exact hB i k
            · exact hA i k)
        rwa [← Finset.add_sum_erase univ _ (Finset.mem_univ j), if_pos rfl,
          Finset.sum_congr rfl (fun k hk => if_neg (Finset.ne_of_mem_erase hk))] at h1
      rw [e2]
      have := dvd_add ih (e3 ▸ e4)
      rwa [sub_add_sub_cancel] at this
  have h := key univ
  have e : (Matrix.of (fun i j => if j ∈ (univ : Finset ι) then B i j else A i j)) = B := by ext i j; simp
  rwa [e] at h

/-- The coefficients of the characteristic polynomial. -/
theorem dvd_charpoly_sub (x : R) (A B : Matrix ι ι R) (a r : ι → ℕ) (T k : ℕ) (hk : k ≤ Fintype.card ι)
    (hA : ∀ i j, x ^ a j ∣ A i j) (hB : ∀ i j, x ^ a j ∣ B i j) (hr : ∀ i j, x ^ r j ∣ A i j - B i j)
    (hT : ∀ s : Finset ι, s.card = k → ∀ j ∈ s, T ≤ r j + ∑ i ∈ s.erase j, a i) :
    x ^ T ∣ A.charpoly.coeff (Fintype.card ι - k) - B.charpoly.coeff (Fintype.card ι - k) := by
  rw [Matrix.charpoly_coeff_eq_sum_minors A k hk, Matrix.charpoly_coeff_eq_sum_minors B k hk, ← mul_sub, ← Finset.sum_sub_distrib]
  refine Dvd.dvd.mul_left (Finset.dvd_sum (fun s hs => ?_)) _
  refine dvd_det_sub x _ _ (fun j : s => a j) (fun j : s => r j) T (fun i j => hA _ _) (fun i j => hB _ _)
    (fun i j => hr _ _) (fun j => ?_)
  refine (hT s (Finset.mem_powersetCard.1 hs).2 j j.2).trans (Nat.add_le_add_left (le_of_eq ?_) _)
  rw [Finset.univ_eq_attach]
  have h : (s.erase (j : ι)) = (s.attach.erase j).map (Function.Embedding.subtype _) := by
    ext i
    simp only [Finset.mem_erase, Finset.mem_map, Finset.mem_attach, and_true, Function.Embedding.coe_subtype, Subtype.exists,
      exists_and_right, exists_eq_right, Subtype.ext_iff, ne_eq]
    constructor
    · rintro ⟨h1, h2⟩; exact ⟨h2, h1⟩
    · rintro ⟨h2, h1⟩; exact ⟨h1, h2⟩
  rw [h, Finset.sum_map]
  rfl

/-- A sum of exponents is at least what the number of small exponents forces. -/
theorem sum_ge (a : ι → ℕ) (s : Finset ι) (j : ι) (hj : j ∈ s) (L : ℕ) :
    ∑ t ∈ range L, ((s.card - 1) - ((univ.filter (fun i => a i ≤ t)).card - if a j ≤ t then 1 else 0)) ≤
      ∑ i ∈ s.erase j, a i := by
  have h1 : ∀ i, ∑ t ∈ range L, (if t < a i then 1 else 0) ≤ a i := by
    intro i
    rw [← Finset.card_filter]
    calc ((range L).filter (fun t => t < a i)).card ≤ (range (a i)).card := Finset.card_le_card (fun t ht => by
          rw [Finset.mem_filter] at ht; exact Finset.mem_range.2 ht.2)
      _ = a i := Finset.card_range _
  refine le_trans ?_ (Finset.sum_le_sum (fun i _ => h1 i))
  rw [Finset.sum_comm]
  refine Finset.sum_le_sum (fun t _ => ?_)
  rw [← Finset.card_filter, ← Finset.card_erase_of_mem hj,
    ← Finset.card_filter_add_card_filter_not (s := s.erase j) (fun i => t < a i)]
  have h2 : ((s.erase j).filter (fun i => ¬ t < a i)).card ≤
      (univ.filter (fun i => a i ≤ t)).card - if a j ≤ t then 1 else 0 := by
    have h3 : ((s.erase j).filter (fun i => ¬ t < a i)) ⊆ (univ.filter (fun i => a i ≤ t)).erase j := by
      intro i hi
      rw [Finset.mem_filter, Finset.mem_erase] at hi
      rw [Finset.mem_erase, Finset.mem_filter]
      exact ⟨hi.1.1, Finset.mem_univ _, not_lt.1 hi.2⟩
    refine (Finset.card_le_card h3).trans ?_
    split
    · rename_i h
      exact (Finset.card_erase_of_mem (Finset.mem_filter.2 ⟨Finset.mem_univ j, h⟩)).le
    · exact (Finset.card_le_card (Finset.erase_subset _ _)).trans (by omega)
  omega

end det

/-! ### The digits lost -/

/-- Legendre's formula with `q` in place of the prime. -/
def leg (q k : ℕ) : ℕ := ((List.range k).map (fun i => k / q ^ (i + 1))).sum

/-- An upper bound for the digits lost for all primes from `q` on. -/
def lostFrom (q n m N : ℕ) : ℕ := (if m + N - 1 = 0 then 0 else leg q (m + N - 2) + (m + N - 2)) - (n - 1)

theorem digitsLost_le {p q : ℕ} [hp : Fact p.Prime] (hq : 1 ≤ q) (hqp : q ≤ p) (n m N : ℕ) :
    digitsLost p n m N ≤ lostFrom q n m N := by
  unfold digitsLost lostFrom frobFact
  refine Nat.sub_le_sub_right ?_ _
  split
  · rename_i h
    rw [h, mul_zero]; simp
  · rename_i h
    obtain ⟨M, hM⟩ : ∃ M, m + N - 1 = M + 1 := ⟨m + N - 2, by omega⟩
    have hp0 := hp.out.pos
    have e : p * (m + N - 1) - 1 = p * M + (p - 1) := by rw [hM, mul_add, mul_one]; omega
    rw [e, padicValNat_factorial_mul_add M (by omega), padicValNat_factorial_mul, show m + N - 2 = M by omega]
    refine Nat.add_le_add_right ?_ _
    rw [padicValNat_factorial (b := M + 1) (by have := Nat.log_le_self p M; omega), Finset.sum_Ico_eq_sum_range,
      Nat.add_sub_cancel]
    have hl : leg q M = ∑ i ∈ range M, M / q ^ (i + 1) := rfl
    rw [hl]
    refine Finset.sum_le_sum (fun i _ => ?_)
    rw [add_comm 1 i]
    exact Nat.div_le_div_left (Nat.pow_le_pow_left hqp _) (pow_pos hq _)

/-! ### The pole orders of the basis -/

theorem card_filter_getElem {α : Type*} (P : α → Prop) [DecidablePred P] :
    ∀ l : List α, (univ.filter (fun i : Fin l.length => P l[i])).card = l.countP (fun x => decide (P x))
  | [] => by simp
  | x :: l => by
    have h : (∑ i : Fin (l.length + 1), if P (x :: l)[i] then 1 else 0) = (List.countP (fun x => decide (P x)) (x :: l) : ℕ) := by
      rw [Fin.sum_univ_succ, List.countP_cons, ← card_filter_getElem P l, Finset.card_filter, add_comm]
      simp only [decide_eq_true_eq]
      rfl
    rw [Finset.card_filter]
    exact h

/-- The number of basis elements of pole order at least `n - t`. -/
def poleCount (n d t : ℕ) : ℕ :=
  ((List.range n).map (fun i => if n - (i + 1) ≤ t then (hilbertJ d n ((i + 1) * d - (n + 1))).toNat else 0)).sum

theorem poleCount_eq {R : Type} [CommRing R] {solve : Solver R} {p n d : ℕ} {f : MonMap R} {D : DR R}
    (hC : Constructed solve p f n d D) (t : ℕ) :
    (univ.filter (fun i : Fin D.basis.length => n - poleOrder n d D.basis[i] ≤ t)).card = poleCount n d t := by
  rw [card_filter_getElem (fun b : IVec => n - poleOrder n d b ≤ t)]
  obtain ⟨-, -, -, blocks, h1, h2, h3, -⟩ := C45_basis hC
  rw [h1, List.countP_flatMap, poleCount]
  refine congrArg List.sum (List.map_congr_left (fun i hi => ?_))
  have hi' := List.mem_range.1 hi
  rw [hilbertJ_eq, ← h3 i hi', Int.toNat_natCast]
  show (blocks i).countP _ = _
  split
  · rename_i h
    rw [List.countP_eq_length]
    intro b hb
    rw [(h2 i hi' b hb).2]
    exact decide_eq_true h
  · rename_i h
    rw [List.countP_eq_zero]
    intro b hb
    rw [(h2 i hi' b hb).2]
    simpa using h

end Verif
