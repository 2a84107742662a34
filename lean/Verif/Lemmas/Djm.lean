import Verif.Model.Frob
import Verif.Spec.Frob
import Verif.Lemmas.Tools
import Mathlib.Algebra.Polynomial.Eval.Defs
import Mathlib.Algebra.Ring.GeomSum
import Mathlib.Data.Nat.Factorial.BigOperators
import Mathlib.Tactic.Ring
import Mathlib.Tactic.LinearCombination

/-! The coefficients `D_{j,m}` and the running factor of the Frobenius functions. -/

namespace Verif

open Spec

/-! ### Coefficients -/

theorem djmLoop_ok {bin : Nat → Res Int} {acc : Int → Int → Res Int} {b : Nat → Int} {s : Int} (cnt : Nat) :
    ∀ (i : Nat) (D : Int), (∀ k, i ≤ k → k < i + cnt → bin k = .ok (b k)) →
      (∀ t, t < cnt → acc (D + s * ∑ k ∈ Finset.Ico i (i + t), b k) (b (i + t)) =
        .ok (D + s * ∑ k ∈ Finset.Ico i (i + t), b k + s * b (i + t))) →
      djmLoop bin acc i cnt D = .ok (D + s * ∑ k ∈ Finset.Ico i (i + cnt), b k) := by
  induction cnt with
  | zero => intro i D _ _; simp [djmLoop]
  | succ cnt ih =>
    intro i D hb ha
    have h0 := ha 0 (by omega)
    simp only [Nat.add_zero, Finset.Ico_self, Finset.sum_empty, mul_zero, add_zero] at h0
    rw [djmLoop, hb i (le_refl _) (by omega), Res.bind_ok, h0, Res.bind_ok]
    have hI : ∀ t, ∑ k ∈ Finset.Ico i (i + 1 + t), b k = b i + ∑ k ∈ Finset.Ico (i + 1) (i + 1 + t), b k :=
      fun t => Finset.sum_eq_sum_Ico_succ_bot (by omega) _
    rw [ih (i + 1) (D + s * b i) (fun k h1 h2 => hb k (by omega) (by omega))]
    · rw [show i + (cnt + 1) = i + 1 + cnt by omega, hI]
      congr 1; ring
    · intro t ht
      have := ha (t + 1) (by omega)
      rw [show i + (t + 1) = i + 1 + t by omega, hI] at this
      rw [show D + s * b i + s * ∑ k ∈ Finset.Ico (i + 1) (i + 1 + t), b k =
        D + s * (b i + ∑ k ∈ Finset.Ico (i + 1) (i + 1 + t), b k) by ring]
      exact this

/-- `bin` at `i`. -/
def dbin (m j i : Nat) : Nat := (m + i - 1).choose (m - 1) * i.choose j

theorem dbin_pos_left {m j i : Nat} (hm : 1 ≤ m) : i.choose j ≤ dbin m j i :=
  Nat.le_mul_of_pos_left _ (Nat.choose_pos (by omega))

theorem dbin_pos_right {m j i : Nat} (h : j ≤ i) : (m + i - 1).choose (m - 1) ≤ dbin m j i :=
  Nat.le_mul_of_pos_right _ (Nat.choose_pos h)

theorem binomial_small {n k : Nat} (h : k ≤ n) (h' : n.choose k < 2 ^ 63) :
    binomial n k = .ok ((n.choose k : Nat) : Int) := by
  rw [binomial_eq n k h, if_pos (by omega), convLong_small _ h']

theorem djm_eq (m N j : Nat) :
    djm m N j = (-1) ^ j * ∑ i ∈ Finset.Ico j N, ((dbin m j i : Nat) : Int) := rfl

theorem addSigned_eq (j : Nat) (D b : Int) : addSigned j D b = D + (-1) ^ j * b := by
  unfold addSigned
  split
  · rename_i h
    rw [Even.neg_one_pow (Nat.even_iff.2 h), one_mul]
  · rename_i h
    rw [Odd.neg_one_pow (Nat.odd_iff.2 (by omega))]; ring

theorem Ico_of_lt {j N : Nat} (f : Nat → Int) :
    ∑ k ∈ Finset.Ico j (j + (N - j)), f k = ∑ k ∈ Finset.Ico j N, f k := by
  rcases Nat.lt_or_ge j N with h | h
  · rw [Nat.add_sub_cancel' h.le]
  · rw [Finset.Ico_eq_empty (by omega), Finset.Ico_eq_empty (by omega)]

theorem djmZZ_ok {m j N : Nat} (hm : 1 ≤ m) (hb : ∀ i, j ≤ i → i < N → i.choose j < 2 ^ 63) :
    djmZZ m j N = .ok (djm m N j) := by
  unfold djmZZ
  rw [djmLoop_ok (b := fun i => ((dbin m j i : Nat) : Int)) (s := (-1) ^ j) (N - j) j 0]
  · rw [Ico_of_lt, zero_add, djm_eq]
  · intro k h1 h2
    have e1 : ((m : Int) + k - 1) = ((m + k - 1 : Nat) : Int) := by omega
    have e2 : ((m : Int) - 1) = ((m - 1 : Nat) : Int) := by omega
    rw [e1, e2, binomialZZ_eq _ _ (by omega), Res.bind_ok, binomial_small h1 (hb k h1 (by omega)), Res.bind_ok,
      Res.pure_eq, dbin]
    push_cast; rfl
  · intro t _
    rw [addSigned_eq]

theorem djmMix_ok {m j N : Nat} (hm : 1 ≤ m) (hb : ∀ i, j ≤ i → i < N → dbin m j i < 2 ^ 63) :
    djmMix m j N = .ok (djm m N j) := by
  unfold djmMix
  rw [djmLoop_ok (b := fun i => ((dbin m j i : Nat) : Int)) (s := (-1) ^ j) (N - j) j 0]
  · rw [Ico_of_lt, zero_add, djm_eq]
  · intro k h1 h2
    have e1 : ((m : Int) + k - 1) = ((m + k - 1 : Nat) : Int) := by omega
    have e2 : ((m : Int) - 1) = ((m - 1 : Nat) : Int) := by omega
    have hlt := hb k h1 (by omega)
    rw [e1, e2, binomial_small (by omega) (lt_of_le_of_lt (dbin_pos_right h1) hlt), Res.bind_ok,
      binomial_small h1 (lt_of_le_of_lt (dbin_pos_left hm) hlt), Res.bind_ok, i64]
    have e3 : (((m + k - 1).choose (m - 1) : Nat) : Int) * ((k.choose j : Nat) : Int) = ((dbin m j k : Nat) : Int) := by
      rw [dbin]; push_cast; rfl
    rw [e3, if_pos ⟨by omega, by exact_mod_cast hlt⟩]
  · intro t _
    rw [addSigned_eq]

theorem djm64_ok {m j N : Nat} (hm : 1 ≤ m) (hb : ∑ i ∈ Finset.Ico j N, dbin m j i < 2 ^ 63) :
    djm64 m j N = .ok (djm m N j) := by
  have hterm : ∀ i, j ≤ i → i < N → dbin m j i < 2 ^ 63 := fun i h1 h2 =>
    lt_of_le_of_lt (Finset.single_le_sum (f := dbin m j) (fun _ _ => Nat.zero_le _)
      (Finset.mem_Ico.2 ⟨h1, h2⟩)) hb
  unfold djm64
  rw [djmLoop_ok (b := fun i => ((dbin m j i : Nat) : Int)) (s := (-1) ^ j) (N - j) j 0]
  · rw [Ico_of_lt, zero_add, djm_eq]
  · intro k h1 h2
    have e1 : ((m : Int) + k - 1) = ((m + k - 1 : Nat) : Int) := by omega
    have e2 : ((m : Int) - 1) = ((m - 1 : Nat) : Int) := by omega
    have hlt := hterm k h1 (by omega)
    rw [e1, e2, binomial_small (by omega) (lt_of_le_of_lt (dbin_pos_right h1) hlt), Res.bind_ok,
      binomial_small h1 (lt_of_le_of_lt (dbin_pos_left hm) hlt), Res.bind_ok, i64]
    have e3 : (((m + k - 1).choose (m - 1) : Nat) : Int) * ((k.choose j : Nat) : Int) = ((dbin m j k : Nat) : Int) := by
      rw [dbin]; push_cast; rfl
    rw [e3, if_pos ⟨by omega, by exact_mod_cast hlt⟩]
  · intro t ht
    have hs : ∑ k ∈ Finset.Ico j (j + t), dbin m j k + dbin m j (j + t) < 2 ^ 63 := by
      rw [← Finset.sum_Ico_succ_top (by omega)]
      refine lt_of_le_of_lt (Finset.sum_le_sum_of_subset ?_) hb
      intro x hx
      rw [Finset.mem_Ico] at hx ⊢
      omega
    have e : 0 + (-1) ^ j * ∑ k ∈ Finset.Ico j (j + t), ((dbin m j k : Nat) : Int) +
        (-1) ^ j * ((dbin m j (j + t) : Nat) : Int) =
        (-1) ^ j * ((∑ k ∈ Finset.Ico j (j + t), dbin m j k + dbin m j (j + t) : Nat) : Int) := by
      push_cast; ring
    rw [addSigned_eq, i64, e, if_pos]
    rcases neg_one_pow_eq_or Int j with h | h <;> rw [h] <;> constructor <;> omega

/-! ### Generating function -/

open Polynomial in
/-- The truncated binomial series, modulo `Y^N`. -/
theorem trunc_series (k N : Nat) :
    (X : ℤ[X]) ^ N ∣ (1 - X) ^ (k + 1) * ∑ i ∈ Finset.range N, C (((k + i).choose k : Nat) : ℤ) * X ^ i - 1 := by
  induction k with
  | zero =>
    refine ⟨-1, ?_⟩
    have h := mul_neg_geom_sum (X : ℤ[X]) N
    simp only [zero_add, Nat.choose_zero_right, Nat.cast_one, map_one, one_mul, pow_one]
    rw [h]; ring
  | succ k ih =>
    have key : ∀ N : Nat, (1 - X : ℤ[X]) * ∑ i ∈ Finset.range N, C (((k + 1 + i).choose (k + 1) : Nat) : ℤ) * X ^ i =
        ∑ i ∈ Finset.range N, C (((k + i).choose k : Nat) : ℤ) * X ^ i - C (((k + N).choose (k + 1) : Nat) : ℤ) * X ^ N := by
      intro N
      induction N with
      | zero => simp
      | succ N ihN =>
        rw [Finset.sum_range_succ, mul_add, ihN, Finset.sum_range_succ]
        have hc : ((k + 1 + N).choose (k + 1) : ℤ) = ((k + N).choose k : ℤ) + ((k + N).choose (k + 1) : ℤ) := by
          rw [show k + 1 + N = k + N + 1 by omega, Nat.choose_succ_succ]; push_cast; rfl
        have hc2 : k + (N + 1) = k + 1 + N := by omega
        rw [hc2]
        simp only [Nat.cast_add, hc, map_add, pow_succ]
        ring
    rw [pow_succ, mul_assoc, key, mul_sub]
    have e : ∀ a b c : ℤ[X], a * b - c - 1 = (a * b - 1) - c := fun a b c => by ring
    rw [e]
    refine dvd_sub ih ?_
    exact Dvd.intro_left ((1 - X) ^ (k + 1) * C (((k + N).choose (k + 1) : Nat) : ℤ)) (by ring)

open Polynomial in
theorem djm_series (m N : Nat) (hm : 1 ≤ m) :
    ∑ j ∈ Finset.range N, C (djm m N j) * (X : ℤ[X]) ^ j =
      ∑ i ∈ Finset.range N, C (((m + i - 1).choose i : Nat) : ℤ) * (1 - X) ^ i := by
  have h1 : ∀ i : Nat, (1 - X : ℤ[X]) ^ i = ∑ j ∈ Finset.range (i + 1), C ((-1) ^ j * (i.choose j : ℤ)) * X ^ j := by
    intro i
    rw [sub_eq_add_neg, add_comm, add_pow]
    refine Finset.sum_congr rfl (fun j _ => ?_)
    rw [neg_pow]
    simp only [map_mul, map_pow, map_neg, map_one, map_natCast, one_pow]
    ring
  have h2 : ∀ i, i < N → (1 - X : ℤ[X]) ^ i = ∑ j ∈ Finset.range N, C ((-1) ^ j * (i.choose j : ℤ)) * X ^ j := by
    intro i hi
    rw [h1]
    refine Finset.sum_subset (fun x hx => ?_) (fun x _ hx => ?_)
    · rw [Finset.mem_range] at hx ⊢; omega
    · rw [Finset.mem_range] at hx
      rw [Nat.choose_eq_zero_of_lt (by omega)]; simp
  have h4 : ∑ i ∈ Finset.range N, C (((m + i - 1).choose i : Nat) : ℤ) * (1 - X : ℤ[X]) ^ i =
      ∑ i ∈ Finset.range N, C (((m + i - 1).choose i : Nat) : ℤ) *
        ∑ j ∈ Finset.range N, C ((-1) ^ j * (i.choose j : ℤ)) * X ^ j :=
    Finset.sum_congr rfl (fun i hi => by rw [h2 i (Finset.mem_range.1 hi)])
  rw [h4]
  simp only [Finset.mul_sum]
  rw [Finset.sum_comm]
  refine Finset.sum_congr rfl (fun j hj => ?_)
  have h3 : djm m N j = ∑ i ∈ Finset.range N, (((m + i - 1).choose i : Nat) : ℤ) * ((-1) ^ j * (i.choose j : ℤ)) := by
    rw [djm, Finset.mul_sum]
    have hsub : ∑ i ∈ Finset.Ico j N, (-1) ^ j * (((m + i - 1).choose (m - 1) * i.choose j : ℕ) : ℤ) =
        ∑ i ∈ Finset.range N, (-1) ^ j * (((m + i - 1).choose (m - 1) * i.choose j : ℕ) : ℤ) := by
      refine Finset.sum_subset (fun x hx => ?_) (fun x hx hx' => ?_)
      · rw [Finset.mem_Ico] at hx; rw [Finset.mem_range]; omega
      · rw [Finset.mem_range] at hx
        rw [Finset.mem_Ico] at hx'
        rw [Nat.choose_eq_zero_of_lt (by omega : x < j)]; simp
    rw [hsub]
    refine Finset.sum_congr rfl (fun i _ => ?_)
    have hsym : (m + i - 1).choose (m - 1) = (m + i - 1).choose i := by
      rw [← Nat.choose_symm (show i ≤ m + i - 1 by omega)]
      congr 1; omega
    rw [hsym]; push_cast; ring
  rw [h3, map_sum, Finset.sum_mul]
  refine Finset.sum_congr rfl (fun i _ => ?_)
  rw [map_mul, mul_assoc]

open Polynomial in
/-- `X^m` times the sum is 1 modulo `(1-X)^N`. -/
theorem djm_inverse (m N : Nat) (hm : 1 ≤ m) :
    (1 - X : ℤ[X]) ^ N ∣ X ^ m * ∑ j ∈ Finset.range N, C (djm m N j) * X ^ j - 1 := by
  rw [djm_series m N hm]
  obtain ⟨k, rfl⟩ : ∃ k, m = k + 1 := ⟨m - 1, by omega⟩
  obtain ⟨Q, hQ⟩ := trunc_series k N
  have h := congrArg (fun P : ℤ[X] => P.comp (1 - X)) hQ
  simp only [sub_comp, mul_comp, pow_comp, one_comp, X_comp, sub_sub_cancel] at h
  have hs : (∑ i ∈ Finset.range N, C (((k + i).choose k : Nat) : ℤ) * X ^ i : ℤ[X]).comp (1 - X) =
      ∑ i ∈ Finset.range N, C (((k + 1 + i - 1).choose i : Nat) : ℤ) * (1 - X) ^ i := by
    rw [← coe_compRingHom_apply, map_sum]
    refine Finset.sum_congr rfl (fun i _ => ?_)
    rw [coe_compRingHom_apply, mul_comp, C_comp, pow_comp, X_comp, show k + 1 + i - 1 = k + i by omega]
    congr 3
    rw [← Nat.choose_symm (show i ≤ k + i by omega), Nat.add_sub_cancel]
  rw [hs] at h
  exact ⟨Q.comp (1 - X), h⟩

/-! ### The running factor -/

/-- The running factor: `(p M - 1)! / (p e - 1)!`, with `(p M - 1)!` for `e = 0`. -/
def phi (p M e : Nat) : Nat := (p * M - 1).factorial / (p * e - 1).factorial

theorem phi_mul {p M e : Nat} (h : e ≤ M) : phi p M e * (p * e - 1).factorial = (p * M - 1).factorial :=
  Nat.div_mul_cancel (Nat.factorial_dvd_factorial (by have := Nat.mul_le_mul_left p h; omega))

theorem phi_top (p M : Nat) : phi p M M = 1 := Nat.div_self (Nat.factorial_pos _)

theorem phi_zero (p M : Nat) : phi p M 0 = (p * M - 1).factorial := by
  simp [phi]

variable {R : Type} [CommRing R]

theorem foldl_mul_range (n : Nat) (g : Nat → R) (a : R) :
    (List.range n).foldl (fun a i => a * g i) a = a * ∏ i ∈ Finset.range n, g i := by
  induction n with
  | zero => simp
  | succ n ih => rw [List.range_succ, List.foldl_append, ih, Finset.prod_range_succ]; simp [mul_assoc]

theorem desc_prod (a k : Nat) (h : k ≤ a) :
    ∏ i ∈ Finset.range k, (((a : Int) - i : Int) : R) = ((a.descFactorial k : Nat) : R) := by
  rw [Nat.descFactorial_eq_prod_range]
  push_cast
  refine Finset.prod_congr rfl (fun i hi => ?_)
  rw [Nat.cast_sub (by have := Finset.mem_range.1 hi; omega)]

theorem factStep_phi {p M e : Nat} (hp : 1 ≤ p) (he : 1 ≤ e) (hM : e ≤ M) :
    factStep p e ((phi p M e : Nat) : R) = ((phi p M (e - 1) : Nat) : R) := by
  unfold factStep
  have hpe : 1 ≤ p * e := Nat.mul_pos hp he
  rw [foldl_mul_range]
  have h1 : ∀ k, ∏ i ∈ Finset.range k, (((p : Int) * e - i - 1 : Int) : R) =
      ∏ i ∈ Finset.range k, ((((p * e - 1 : Nat) : Int) - i : Int) : R) := by
    intro k
    refine Finset.prod_congr rfl (fun i _ => ?_)
    congr 1
    rw [Nat.cast_sub hpe]; push_cast; ring
  rw [h1]
  have hf := phi_mul (p := p) hM
  have hf' := phi_mul (p := p) (show e - 1 ≤ M by omega)
  split
  · rename_i h2
    have hpp : p * 2 ≤ p * e := Nat.mul_le_mul_left p h2
    rw [desc_prod _ _ (by omega)]
    have hd := Nat.factorial_mul_descFactorial (show p ≤ p * e - 1 by omega)
    have hsub : p * e - 1 - p = p * (e - 1) - 1 := by rw [Nat.mul_sub, Nat.mul_one]; omega
    rw [hsub] at hd
    rw [← Nat.cast_mul]
    congr 1
    refine Nat.eq_of_mul_eq_mul_right (Nat.factorial_pos (p * (e - 1) - 1)) ?_
    rw [hf', mul_assoc, mul_comm ((p * e - 1).descFactorial p), hd, hf]
  · have h1 : e = 1 := by omega
    subst h1
    rw [desc_prod _ _ (by omega), ← Nat.cast_mul]
    congr 1
    rw [Nat.sub_self, phi_zero, ← hf, Nat.mul_one, Nat.descFactorial_self]

theorem factorialR_ascPochhammer (a s : Nat) (hs : 1 ≤ s) (h : s ≤ a + 1) :
    (factorialR a s : R) * (((s - 1).factorial : Nat) : R) = ((a.factorial : Nat) : R) := by
  unfold factorialR
  rw [foldl_mul_range, one_mul]
  have : ∏ i ∈ Finset.range (a + 1 - s), (((s + i : Nat)) : R) = (((s.ascFactorial (a + 1 - s) : Nat)) : R) := by
    rw [Nat.ascFactorial_eq_prod_range]; push_cast; rfl
  rw [this, ← Nat.cast_mul]
  congr 1
  obtain ⟨t, rfl⟩ : ∃ t, s = t + 1 := ⟨s - 1, by omega⟩
  rw [Nat.add_sub_cancel, mul_comm, Nat.factorial_mul_ascFactorial]
  congr 1; omega

theorem factorialR_cast (a s : Nat) : (factorialR a s : R) = ((factorialR a s : Int) : R) := by
  unfold factorialR
  rw [foldl_mul_range, foldl_mul_range]
  push_cast
  rfl

theorem factorialR_phi {p M e : Nat} (hp : 1 ≤ p) (he : 1 ≤ e) (hM : e ≤ M) :
    (factorialR (p * M - 1) (p * e) : R) = ((phi p M e : Nat) : R) := by
  have hpe : 1 ≤ p * e := Nat.mul_pos hp he
  have hle := Nat.mul_le_mul_left p hM
  have h := factorialR_ascPochhammer (R := Int) (p * M - 1) (p * e) hpe (by omega)
  have h2 := phi_mul (p := p) hM
  have h3 : (factorialR (p * M - 1) (p * e) : Int) = ((phi p M e : Nat) : Int) := by
    have h4 : (((p * e - 1).factorial : Nat) : Int) ≠ 0 := by exact_mod_cast Nat.factorial_ne_zero _
    refine mul_right_cancel₀ h4 ?_
    rw [h, ← h2]; push_cast; rfl
  rw [factorialR_cast, h3]; push_cast; rfl

theorem factorialR_one (a : Nat) : (factorialR a 1 : R) = ((a.factorial : Nat) : R) := by
  have h := factorialR_ascPochhammer (R := R) a 1 (le_refl _) (by omega)
  simpa using h

end Verif
