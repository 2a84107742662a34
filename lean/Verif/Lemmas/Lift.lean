import Mathlib.FieldTheory.Finite.Polynomial
import Verif.Spec.Lift
import Verif.Lemmas.Djm

/-!
The truncated series against the lift of Frobenius `x_i ↦ x_i^p`.
-/

namespace Verif

open Spec

section
variable {A : Type} [CommRing A]

/-- `Σ_{i<N} C(k+i, k) y^i a^(N-1-i)`. -/
def binTrunc (a y : A) (k N : ℕ) : A := ∑ i ∈ Finset.range N, ((k + i).choose k : A) * y ^ i * a ^ (N - 1 - i)

theorem binTrunc_zero (a y : A) (k : ℕ) : binTrunc a y k 0 = 0 := by simp [binTrunc]

theorem binTrunc_succ (a y : A) (k N : ℕ) : binTrunc a y k (N + 1) = a * binTrunc a y k N + ((k + N).choose k : A) * y ^ N := by
  rw [binTrunc, Finset.sum_range_succ, binTrunc, Finset.mul_sum]
  congr 1
  · refine Finset.sum_congr rfl (fun i hi => ?_)
    have := Finset.mem_range.1 hi
    rw [show N + 1 - 1 - i = N - 1 - i + 1 by omega, pow_succ]; ring
  · simp

/-- `(a - y)^(k+1)` times the truncated series is `a^(k+N)` modulo `y^N`. -/
theorem binTrunc_inverse (a y : A) (k N : ℕ) : y ^ N ∣ (a - y) ^ (k + 1) * binTrunc a y k N - a ^ (k + N) := by
  induction k with
  | zero =>
    have : ∀ N : ℕ, (a - y) * binTrunc a y 0 N = a ^ N - y ^ N := by
      intro N
      induction N with
      | zero => simp [binTrunc_zero]
      | succ N ih =>
        rw [binTrunc_succ, mul_add, mul_left_comm, ih]
        simp only [Nat.choose_zero_right, Nat.cast_one, pow_succ]; ring
    rw [zero_add, pow_one, this, zero_add]
    exact ⟨-1, by ring⟩
  | succ k ih =>
    have key : ∀ N : ℕ, (a - y) * binTrunc a y (k + 1) N = a * binTrunc a y k N - ((k + N).choose (k + 1) : A) * y ^ N := by
      intro N
      induction N with
      | zero => simp [binTrunc_zero]
      | succ N ihN =>
        rw [binTrunc_succ, mul_add, mul_left_comm, ihN, binTrunc_succ]
        have hc : ((k + 1 + N).choose (k + 1) : A) = ((k + N).choose k : A) + ((k + N).choose (k + 1) : A) := by
          rw [show k + 1 + N = k + N + 1 by omega, Nat.choose_succ_succ]; push_cast; rfl
        rw [show k + (N + 1) = k + 1 + N by omega, hc, pow_succ]
        ring
    rw [pow_succ, mul_assoc, key]
    have e : (a - y) ^ (k + 1) * (a * binTrunc a y k N - ((k + N).choose (k + 1) : A) * y ^ N) - a ^ (k + 1 + N) =
        a * ((a - y) ^ (k + 1) * binTrunc a y k N - a ^ (k + N)) - y ^ N * ((a - y) ^ (k + 1) * ((k + N).choose (k + 1) : A)) := by
      rw [show k + 1 + N = k + N + 1 by omega, pow_succ a (k + N)]; ring
    rw [e]
    exact dvd_sub (Dvd.dvd.mul_left ih _) (Dvd.intro _ rfl)

/-- The expanded series is the truncated binomial series in `a - s`. -/
theorem djm_binTrunc (a s : A) {m : ℕ} (hm : 1 ≤ m) (N : ℕ) :
    ∑ j ∈ Finset.range N, ((djm m N j : ℤ) : A) * (s ^ j * a ^ (N - 1 - j)) = binTrunc a (a - s) (m - 1) N := by
  have h1 : ∀ i : ℕ, i < N → (a - s) ^ i * a ^ (N - 1 - i) =
      ∑ j ∈ Finset.range (i + 1), (((-1) ^ j * (i.choose j : ℤ) : ℤ) : A) * (s ^ j * a ^ (N - 1 - j)) := by
    intro i hi
    rw [sub_eq_add_neg, add_comm, add_pow, Finset.sum_mul]
    refine Finset.sum_congr rfl (fun j hj => ?_)
    have := Finset.mem_range.1 hj
    rw [neg_pow, show N - 1 - j = (i - j) + (N - 1 - i) by omega, pow_add]
    push_cast
    ring
  rw [binTrunc]
  have h2 : ∀ i ∈ Finset.range N, ((m - 1 + i).choose (m - 1) : A) * (a - s) ^ i * a ^ (N - 1 - i) =
      ∑ j ∈ Finset.range N, if j ≤ i then
        ((((-1) ^ j * ((m + i - 1).choose (m - 1) * i.choose j : ℕ)) : ℤ) : A) * (s ^ j * a ^ (N - 1 - j)) else 0 := by
    intro i hi
    have hi' := Finset.mem_range.1 hi
    rw [mul_assoc, h1 i hi', Finset.mul_sum, ← Finset.sum_filter]
    have hset : Finset.filter (fun j => j ≤ i) (Finset.range N) = Finset.range (i + 1) := by
      ext j; simp only [Finset.mem_filter, Finset.mem_range]; omega
    rw [hset]
    refine Finset.sum_congr rfl (fun j _ => ?_)
    rw [show m - 1 + i = m + i - 1 by omega]
    push_cast
    ring
  rw [Finset.sum_congr rfl h2, Finset.sum_comm]
  refine Finset.sum_congr rfl (fun j hj => ?_)
  rw [← Finset.sum_filter]
  have hset : Finset.filter (fun i => j ≤ i) (Finset.range N) = Finset.Ico j N := by
    ext i; simp only [Finset.mem_filter, Finset.mem_range, Finset.mem_Ico]; omega
  rw [hset, djm, Finset.mul_sum, Int.cast_sum, Finset.sum_mul]

end

/-- Modulo `p` the lift `x_i ↦ x_i^p` is the `p`-th power. -/
theorem frob_lift_dvd {p K : ℕ} [hprime : Fact p.Prime] (hK : 1 ≤ K) {σ : Type} (f : MvPolynomial σ (ZMod (p ^ K))) :
    (p : MvPolynomial σ (ZMod (p ^ K))) ∣ f ^ p - MvPolynomial.expand p f := by
  have hpK : p ∣ p ^ K := dvd_pow_self p (by omega)
  have : NeZero (p ^ K) := ⟨pow_ne_zero _ hprime.out.ne_zero⟩
  have h0 : MvPolynomial.map (ZMod.castHom hpK (ZMod p)) (f ^ p - MvPolynomial.expand p f) = 0 := by
    rw [map_sub, map_pow, MvPolynomial.map_expand, MvPolynomial.expand_zmod, sub_self]
  rw [show (p : MvPolynomial σ (ZMod (p ^ K))) = MvPolynomial.C (p : ZMod (p ^ K)) by simp, MvPolynomial.C_dvd_iff_dvd_coeff]
  intro i
  have h1 := congrArg (MvPolynomial.coeff i) h0
  rw [MvPolynomial.coeff_map, MvPolynomial.coeff_zero] at h1
  generalize MvPolynomial.coeff i (f ^ p - MvPolynomial.expand p f) = x at h1
  rw [← ZMod.natCast_zmod_val x, map_natCast, ZMod.natCast_eq_zero_iff] at h1
  obtain ⟨y, hy⟩ := h1
  exact ⟨(y : ZMod (p ^ K)), by rw [← ZMod.natCast_zmod_val x, hy, Nat.cast_mul]⟩

end Verif

namespace Verif

open Spec MvPolynomial

section
variable {R : Type} [CommRing R] {n : ℕ}

theorem numer_add (f : MvPolynomial (Fin (n + 1)) R) (e : ℕ) (ω ω' : Forms R n) : numer f e (ω + ω') = numer f e ω + numer f e ω' :=
  Finsupp.sum_add_index' (fun _ => zero_mul _) (fun _ _ _ => add_mul _ _ _)

theorem numer_sum {ι : Type} (f : MvPolynomial (Fin (n + 1)) R) (e : ℕ) (s : Finset ι) (ω : ι → Forms R n) :
    numer f e (∑ i ∈ s, ω i) = ∑ i ∈ s, numer f e (ω i) := by
  classical
  induction s using Finset.induction_on with
  | empty => simp [numer]
  | insert a s ha ih => rw [Finset.sum_insert ha, Finset.sum_insert ha, numer_add, ih]

theorem numer_form (f G : MvPolynomial (Fin (n + 1)) R) (e k : ℕ) (c : R) : numer f e (c • form k G) = C c * (G * f ^ (e - k)) := by
  rw [form, Finsupp.smul_single, numer, Finsupp.sum_single_index (zero_mul _), smul_eq_C_mul, mul_assoc]

/-- The numerator of the truncated series. -/
theorem numer_frobSeries (f : MvPolynomial (Fin (n + 1)) R) (p : ℕ) {m : ℕ} (hm : 1 ≤ m) (N : ℕ) (b : Fin (n + 1) → ℤ) :
    numer f (p * (m + N - 1)) (frobSeries f p m N b) =
      xpow R (fun i => p * (b i + 1) - 1) * binTrunc (f ^ p) (f ^ p - expand p f) (m - 1) N := by
  rw [frobSeries, numer_sum, ← djm_binTrunc _ _ hm, Finset.mul_sum]
  refine Finset.sum_congr rfl (fun j hj => ?_)
  have hj := Finset.mem_range.1 hj
  rw [numer_form, ← Nat.mul_sub, show m + N - 1 - (m + j) = N - 1 - j by omega, pow_mul, map_pow,
    show C ((djm m N j : ℤ) : R) = ((djm m N j : ℤ) : MvPolynomial (Fin (n + 1)) R) from map_intCast _ _]
  ring

theorem frobSeries_support (f : MvPolynomial (Fin (n + 1)) R) (p m N : ℕ) (b : Fin (n + 1) → ℤ) :
    ∀ k ∈ (frobSeries f p m N b).support, k ≤ p * (m + N - 1) := by
  classical
  intro k hk
  rw [frobSeries] at hk
  obtain ⟨j, hj, h⟩ := Finset.mem_biUnion.1 (Finsupp.support_finset_sum hk)
  have hj := Finset.mem_range.1 hj
  rw [form, Finsupp.smul_single] at h
  have := Finset.mem_singleton.1 (Finsupp.support_single_subset h)
  rw [this]
  exact Nat.mul_le_mul_left _ (by omega)

end

/-- A polynomial that is not zero modulo `p` can be cancelled modulo `p^N`. -/
theorem cancel_mod {p K : ℕ} [hprime : Fact p.Prime] {σ : Type} {g : MvPolynomial σ (ZMod (p ^ K))} (hpK : p ∣ p ^ K)
    (hg : MvPolynomial.map (ZMod.castHom hpK (ZMod p)) g ≠ 0) : ∀ {N : ℕ}, N ≤ K → ∀ h : MvPolynomial σ (ZMod (p ^ K)),
      C ((p : ZMod (p ^ K)) ^ N) ∣ h * g → C ((p : ZMod (p ^ K)) ^ N) ∣ h := by
  have : NeZero (p ^ K) := ⟨pow_ne_zero _ hprime.out.ne_zero⟩
  have hker : ∀ h : MvPolynomial σ (ZMod (p ^ K)), MvPolynomial.map (ZMod.castHom hpK (ZMod p)) h = 0 → C (p : ZMod (p ^ K)) ∣ h := by
    intro h h0
    rw [C_dvd_iff_dvd_coeff]
    intro i
    have h1 := congrArg (coeff i) h0
    rw [coeff_map, coeff_zero] at h1
    generalize coeff i h = x at h1
    rw [← ZMod.natCast_zmod_val x, map_natCast, ZMod.natCast_eq_zero_iff] at h1
    obtain ⟨y, hy⟩ := h1
    exact ⟨(y : ZMod (p ^ K)), by rw [← ZMod.natCast_zmod_val x, hy, Nat.cast_mul]⟩
  intro N
  induction N with
  | zero => intro _ h _; exact ⟨h, by simp⟩
  | succ N ih =>
    intro hN h ⟨H, hH⟩
    have h1 : MvPolynomial.map (ZMod.castHom hpK (ZMod p)) h = 0 := by
      have h2 := congrArg (MvPolynomial.map (ZMod.castHom hpK (ZMod p))) hH
      rw [map_mul, map_mul, map_C, map_pow, map_natCast, ZMod.natCast_self, zero_pow (by omega), map_zero, zero_mul] at h2
      exact (mul_eq_zero.1 h2).resolve_right hg
    obtain ⟨h', rfl⟩ := hker h h1
    have h3 : C (p : ZMod (p ^ K)) * (h' * g - C ((p : ZMod (p ^ K)) ^ N) * H) = 0 := by
      rw [mul_sub, ← mul_assoc, hH, ← mul_assoc, ← C_mul, ← pow_succ', sub_self]
    have h4 : C ((p : ZMod (p ^ K)) ^ N) ∣ h' * g - C ((p : ZMod (p ^ K)) ^ N) * H := by
      rw [C_dvd_iff_dvd_coeff]
      intro i
      have h5 := congrArg (coeff i) h3
      rw [coeff_C_mul, coeff_zero] at h5
      generalize coeff i (h' * g - C ((p : ZMod (p ^ K)) ^ N) * H) = x at h5
      rw [← ZMod.natCast_zmod_val x, ← Nat.cast_mul, ZMod.natCast_eq_zero_iff] at h5
      have h6 : p ^ N ∣ x.val := by
        refine Nat.dvd_of_mul_dvd_mul_left hprime.out.pos (dvd_trans ?_ h5)
        rw [← pow_succ']
        exact pow_dvd_pow p hN
      obtain ⟨y, hy⟩ := h6
      exact ⟨(y : ZMod (p ^ K)), by rw [← ZMod.natCast_zmod_val x, hy, Nat.cast_mul, Nat.cast_pow]⟩
    have h7 := ih (by omega) h' (by simpa using dvd_add h4 (Dvd.intro H rfl))
    rw [pow_succ', C_mul]
    exact mul_dvd_mul_left _ h7

end Verif
