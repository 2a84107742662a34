import Mathlib.Algebra.Polynomial.Eval.Defs
import Mathlib.Algebra.Polynomial.BigOperators
import Mathlib.Algebra.Polynomial.Degree.Lemmas
import Mathlib.Data.ZMod.Basic
import Mathlib.Tactic.Ring
import Mathlib.Tactic.Linarith

/-! The sum of the coefficients of a polynomial in the degrees divisible by `d`. -/

namespace Verif

open Polynomial Finset

/-- The sum of the coefficients of `f` in the degrees that are `r` modulo `d`. -/
noncomputable def resSum (d : Nat) (f : ℤ[X]) (r : ZMod d) : ℤ := f.sum (fun m c => if (m : ZMod d) = r then c else 0)

theorem resSum_add (d : Nat) (f g : ℤ[X]) (r : ZMod d) : resSum d (f + g) r = resSum d f r + resSum d g r := by
  rw [resSum, Polynomial.sum_add_index]
  · rfl
  · intro i; simp
  · intro i a b; split_ifs <;> simp

theorem resSum_zero (d : Nat) (r : ZMod d) : resSum d 0 r = 0 := Polynomial.sum_zero_index _

theorem resSum_sum {ι : Type} (d : Nat) (s : Finset ι) (f : ι → ℤ[X]) (r : ZMod d) :
    resSum d (∑ i ∈ s, f i) r = ∑ i ∈ s, resSum d (f i) r := by
  classical
  induction s using Finset.induction_on with
  | empty => simp [resSum_zero]
  | insert a s ha ih => rw [sum_insert ha, sum_insert ha, resSum_add, ih]

theorem resSum_monomial (d m : Nat) (c : ℤ) (r : ZMod d) :
    resSum d (monomial m c) r = if (m : ZMod d) = r then c else 0 := by
  rw [resSum, Polynomial.sum_monomial_index]
  simp

theorem resSum_X_pow_mul (d j : Nat) (f : ℤ[X]) (r : ZMod d) : resSum d (X ^ j * f) r = resSum d f (r - j) := by
  induction f using Polynomial.induction_on' with
  | add f g hf hg => rw [mul_add, resSum_add, resSum_add, hf, hg]
  | monomial m c =>
    rw [X_pow_eq_monomial, monomial_mul_monomial, resSum_monomial, resSum_monomial, one_mul]
    congr 1
    push_cast
    rw [eq_sub_iff_add_eq, add_comm]

theorem resSum_total (d : Nat) [NeZero d] (f : ℤ[X]) : ∑ r, resSum d f r = f.eval 1 := by
  induction f using Polynomial.induction_on' with
  | add f g hf hg => simp only [resSum_add, sum_add_distrib, hf, hg, eval_add]
  | monomial m c => simp [resSum_monomial]

/-- A sum over all residues but 0. -/
theorem sum_residues (d : Nat) [NeZero d] (h : ZMod d → ℤ) : ∑ j ∈ range (d - 1), h ((j + 1 : ℕ) : ZMod d) = ∑ r, h r - h 0 := by
  have e : ∑ r, h r = ∑ j ∈ range d, h (j : ZMod d) := by
    symm
    refine Finset.sum_bij (fun j _ => (j : ZMod d)) (fun _ _ => mem_univ _) ?_ ?_ (fun _ _ => rfl)
    · intro a ha b hb hab
      have := congrArg ZMod.val hab
      rwa [ZMod.val_natCast_of_lt (mem_range.1 ha), ZMod.val_natCast_of_lt (mem_range.1 hb)] at this
    · intro r _
      exact ⟨r.val, mem_range.2 (ZMod.val_lt r), ZMod.natCast_zmod_val r⟩
  obtain ⟨k, hk⟩ : ∃ k, d = k + 1 := ⟨d - 1, by have := NeZero.pos d; omega⟩
  rw [e]
  conv_rhs => rw [show range d = range (k + 1) by rw [hk], sum_range_succ']
  rw [show d - 1 = k by omega]
  simp

theorem resSum_geom_one (d : Nat) [NeZero d] (f : ℤ[X]) :
    resSum d ((∑ j ∈ range (d - 1), X ^ (j + 1)) * f) 0 = f.eval 1 - resSum d f 0 := by
  rw [sum_mul, resSum_sum]
  simp only [resSum_X_pow_mul, zero_sub]
  rw [sum_residues d (fun r => resSum d f (-r)), neg_zero, ← resSum_total d f]
  congr 1
  exact Fintype.sum_equiv (Equiv.neg _) _ _ (fun _ => rfl)

theorem eval_geom_one (d : Nat) : (∑ j ∈ range (d - 1), (X : ℤ[X]) ^ (j + 1)).eval 1 = ((d - 1 : ℕ) : ℤ) := by
  simp [eval_finset_sum]

theorem resSum_geom_pow (d : Nat) (hd : 1 ≤ d) (k : Nat) :
    d * resSum d ((∑ j ∈ range (d - 1), X ^ (j + 1)) ^ k) 0 = ((d : ℤ) - 1) ^ k + (-1) ^ k * (d - 1) := by
  haveI : NeZero d := ⟨by omega⟩
  induction k with
  | zero =>
    have : resSum d (1 : ℤ[X]) 0 = 1 := by
      rw [← Polynomial.C_1, ← Polynomial.monomial_zero_left, resSum_monomial]
      simp
    rw [pow_zero, this]; ring
  | succ k ih =>
    rw [pow_succ' (∑ j ∈ range (d - 1), (X : ℤ[X]) ^ (j + 1)), resSum_geom_one, eval_pow, eval_geom_one, mul_sub, ih]
    push_cast [hd]
    ring

theorem resSum_full (d : Nat) [NeZero d] (f : ℤ[X]) (r : ZMod d) :
    resSum d ((∑ j ∈ range d, X ^ j) * f) r = f.eval 1 := by
  rw [sum_mul, resSum_sum]
  simp only [resSum_X_pow_mul]
  rw [← resSum_total d f]
  refine Finset.sum_bij (fun j _ => r - (j : ZMod d)) (fun _ _ => mem_univ _) ?_ ?_ (fun _ _ => rfl)
  · intro a ha b hb hab
    have := congrArg ZMod.val (sub_right_injective hab)
    rwa [ZMod.val_natCast_of_lt (mem_range.1 ha), ZMod.val_natCast_of_lt (mem_range.1 hb)] at this
  · intro s _
    exact ⟨(r - s).val, mem_range.2 (ZMod.val_lt _), by rw [ZMod.natCast_zmod_val]; ring⟩

/-- The residue sum at 0 as a sum over the multiples of `d`. -/
theorem resSum_multiples (d : Nat) (hd : 1 ≤ d) (f : ℤ[X]) (m : Nat) (hm : f.natDegree < m * d) :
    resSum d f 0 = ∑ i ∈ range m, f.coeff (i * d) := by
  rw [resSum, Polynomial.sum_over_range' f (n := m * d) (by intro n; simp) hm]
  rw [← Finset.sum_filter]
  symm
  refine Finset.sum_bij (fun i _ => i * d) ?_ ?_ ?_ (fun _ _ => rfl)
  · intro i hi
    rw [mem_filter, mem_range]
    refine ⟨Nat.mul_lt_mul_of_pos_right (mem_range.1 hi) hd, by simp⟩
  · intro a _ b _ hab
    exact Nat.eq_of_mul_eq_mul_right hd hab
  · intro b hb
    rw [mem_filter, mem_range, ZMod.natCast_eq_zero_iff] at hb
    obtain ⟨h1, c, rfl⟩ := hb
    refine ⟨c, mem_range.2 ?_, mul_comm _ _⟩
    rw [mul_comm d c] at h1
    exact Nat.lt_of_mul_lt_mul_right h1

/-- The number of monomials of the basis: `d b = (d-1)^(n+1) + (-1)^(n+1) (d-1)`. -/
theorem rank_formula (n d : Nat) (hd : n < d) :
    d * ∑ i ∈ range n, ((∑ j ∈ range (d - 1), (X : ℤ[X]) ^ j) ^ (n + 1)).coeff ((i + 1) * d - (n + 1)) =
      ((d : ℤ) - 1) ^ (n + 1) + (-1) ^ (n + 1) * (d - 1) := by
  rw [← resSum_geom_pow d (by omega) (n + 1)]
  congr 1
  have e : ((∑ j ∈ range (d - 1), (X : ℤ[X]) ^ (j + 1)) ^ (n + 1)) = (∑ j ∈ range (d - 1), (X : ℤ[X]) ^ j) ^ (n + 1) * X ^ (n + 1) := by
    rw [← mul_pow, sum_mul]
    simp only [pow_succ]
  have hdeg : ((∑ j ∈ range (d - 1), (X : ℤ[X]) ^ (j + 1)) ^ (n + 1)).natDegree < (n + 1) * d := by
    have h1 : (∑ j ∈ range (d - 1), (X : ℤ[X]) ^ (j + 1)).natDegree ≤ d - 1 := by
      apply natDegree_sum_le_of_forall_le
      intro j hj
      rw [natDegree_X_pow]
      have := mem_range.1 hj; omega
    calc _ ≤ (n + 1) * (d - 1) := le_trans natDegree_pow_le (Nat.mul_le_mul_left _ h1)
      _ < (n + 1) * d := Nat.mul_lt_mul_of_pos_left (by omega) (by omega)
  rw [resSum_multiples d (by omega) _ (n + 1) hdeg, sum_range_succ', e]
  have h0 : ((∑ j ∈ range (d - 1), (X : ℤ[X]) ^ j) ^ (n + 1) * X ^ (n + 1)).coeff (0 * d) = 0 := by
    rw [coeff_mul_X_pow', if_neg (by omega)]
  rw [h0, add_zero]
  apply sum_congr rfl
  intro i _
  rw [coeff_mul_X_pow', if_pos]
  nlinarith

theorem rank_formula_ND (n d : Nat) (hd : 1 ≤ d) :
    ∑ i ∈ range (n + 1), ((∑ j ∈ range d, (X : ℤ[X]) ^ j) ^ (n + 1)).coeff (i * d) = (d : ℤ) ^ n := by
  haveI : NeZero d := ⟨by omega⟩
  have hdeg : ((∑ j ∈ range d, (X : ℤ[X]) ^ j) ^ (n + 1)).natDegree < (n + 1) * d := by
    have h1 : (∑ j ∈ range d, (X : ℤ[X]) ^ j).natDegree ≤ d - 1 := by
      apply natDegree_sum_le_of_forall_le
      intro j hj
      rw [natDegree_X_pow]
      have := mem_range.1 hj; omega
    calc _ ≤ (n + 1) * (d - 1) := le_trans natDegree_pow_le (Nat.mul_le_mul_left _ h1)
      _ < (n + 1) * d := Nat.mul_lt_mul_of_pos_left (by omega) (by omega)
  rw [← resSum_multiples d hd _ (n + 1) hdeg, pow_succ', resSum_full, eval_pow]
  simp [eval_finset_sum]

end Verif
