import Verif.Lemmas.Tools
import Verif.Lemmas.Map
import Mathlib.Data.Nat.Factorial.BigOperators

/-!
Properties C05-C09: binomials, monomial lists, reverse lookup, factorials (`tools/`).
Also the part of C01 about maps.
-/

namespace Verif

open Spec

/-! ### C01, maps -/

/-- **C01 (maps).**  After any sequence of assignments with keys of one positive length, the map
lists its keys in strictly increasing order (so no monomial occurs twice), and each key holds the
last value assigned to it (so no two monomials are merged). -/
theorem C01_map_sound {V : Type} (n : Nat) (hn : 0 < n) (l : List (IVec × V))
    (hl : ∀ e ∈ l, e.1.length = n) :
    (MonMap.keys (MonMap.setAll [] l)).Pairwise LexLt ∧
    (MonMap.keys (MonMap.setAll [] l)).Nodup ∧
    ∀ k v, MonMap.find? (MonMap.setAll [] l) k = some v ↔
      ∃ l1 l2, l = l1 ++ (k, v) :: l2 ∧ ∀ e ∈ l2, e.1 ≠ k := by
  have hw := MonMap.setAll_wf hn l hl [] (MonMap.keyLen_nil n) MonMap.sorted_nil
  refine ⟨hw.2, LexLt_pairwise_nodup hw.2, ?_⟩
  intro k v
  rw [MonMap.find?_setAll]
  constructor
  · intro h
    cases hf : l.reverse.find? (fun e => decide (e.1 = k)) with
    | none => rw [hf] at h; simp at h
    | some x =>
      rw [hf] at h
      simp only [Option.some.injEq] at h
      rw [List.find?_eq_some_iff_append] at hf
      obtain ⟨hx, as, bs, hab, hall⟩ := hf
      refine ⟨bs.reverse, as.reverse, ?_, ?_⟩
      · have := congrArg List.reverse hab
        simp only [List.reverse_reverse, List.reverse_append, List.reverse_cons,
          List.append_assoc, List.cons_append, List.nil_append] at this
        rw [this]
        have : x = (k, v) := by
          simp only [decide_eq_true_eq] at hx
          exact Prod.ext hx h
        rw [this]
      · intro e he
        have := hall e (by simpa using he)
        simpa using this
  · rintro ⟨l1, l2, rfl, h⟩
    have hf : (l1 ++ (k, v) :: l2).reverse.find? (fun e => decide (e.1 = k)) = some (k, v) := by
      rw [List.find?_eq_some_iff_append]
      exact ⟨by simp, l2.reverse, l1.reverse, by simp, by simpa using h⟩
    rw [hf]

example : ∀ e ∈ ([([1, 2], 5), ([0, 3], 7), ([1, 2], 9)] : List (IVec × Int)), e.1.length = 2 := by
  simp

/-! ### C05 -/

/-- **C05 (`binomial_ZZ`).**  For `0 ≤ k ≤ n` the result is `n choose k`, and the division in the
code is exact. -/
theorem C05_binomial_ZZ (n k : Nat) (h : k ≤ n) :
    binomialZZ n k = .ok ((n.choose k : Nat) : Int) ∧
    prodFrom 1 (n - k) ∣ prodFrom ((k : Int) + 1) (n - k) :=
  ⟨binomialZZ_eq n k h, ⟨_, prodFrom_choose n k h⟩⟩

example : binomialZZ 100 50 = .ok 100891344545564193334812497256 := by decide +kernel

/-- **C05 (`binomial`, the part that holds).**  The binomial coefficient is returned when it is
below `2^63`, and the program stops when it needs more than 8 bytes or `k > n`.
Missing from the full claim: coefficients from `2^63` to `2^64 - 1`, where the claim is false
(`C05_binomial_window_wrong`). -/
theorem C05_binomial_partial (n k : Nat) :
    (k ≤ n → n.choose k < 2 ^ 63 → binomial n k = .ok ((n.choose k : Nat) : Int)) ∧
    (k ≤ n → 2 ^ 64 ≤ n.choose k → binomial n k = .error .assertFail) ∧
    (n < k → binomial n k = .error .assertFail ∧ binomialZZ n k = .error .assertFail) := by
  refine ⟨fun h h' => ?_, fun h h' => ?_, fun h => ?_⟩
  · rw [binomial_eq n k h, if_pos (by omega), convLong_small _ h']
  · rw [binomial_eq n k h, if_neg (by omega)]
  · have : ¬ ((n : Int) ≥ k) := by omega
    simp [binomial, binomialZZ, this]

example : binomial 66 33 = .ok 7219428434016265740 := by decide +kernel
example : binomial 70 35 = .error .assertFail := by decide +kernel

/-- **C05 (the claim "it never returns a different number" is false).**  Every coefficient from
`2^63` to `2^64 - 1` passes the 8-byte assertion and is returned as a negative number; such
coefficients exist. -/
theorem C05_binomial_window_wrong :
    (∀ n k : Nat, k ≤ n → 2 ^ 63 ≤ n.choose k → n.choose k < 2 ^ 64 →
      binomial n k = .ok (((n.choose k : Nat) : Int) - 2 ^ 64)) ∧
    (2 ^ 63 ≤ Nat.choose 67 33 ∧ Nat.choose 67 33 < 2 ^ 64) := by
  constructor
  · intro n k h h1 h2
    rw [binomial_eq n k h, if_pos h2, convLong_window _ h1 h2]
  · decide +kernel

example : binomial 67 33 = .ok (-4220223336089263246) := by decide +kernel

/-! ### C06 -/

/-- **C06.**  In `n + 1 ≥ 1` variables and for every degree `d ≥ 0` for which the number of tuples
is a signed 64-bit number, the call returns (its closing assertion holds) a list which contains
exactly the tuples of non-negative integers of sum `d`, in strictly increasing lexicographic order
(hence each once), and whose length is the binomial coefficient. -/
theorem C06_tuple_list (d n : Nat) (h : (d + n).choose n < 2 ^ 63) :
    ∃ l, tupleListGenerator d (n + 1) = .ok l ∧
      (∀ t, t ∈ l ↔ IsTuple (n + 1) d t) ∧
      l.Pairwise LexLt ∧ l.Nodup ∧ l.length = (d + n).choose n :=
  ⟨comps n d, tupleListGenerator_eq d n h, fun t => mem_comps n d t, comps_sorted n d,
    LexLt_pairwise_nodup (comps_sorted n d), comps_length n d⟩

example : tupleListGenerator 2 3 =
    .ok [[0, 0, 2], [0, 1, 1], [0, 2, 0], [1, 0, 1], [1, 1, 0], [2, 0, 0]] := by decide +kernel
example : (7 + 3).choose 3 < 2 ^ 63 := by decide +kernel

/-- **C06 (oversized lists).**  When the number of tuples does not fit a signed 64-bit integer the
call stops; it never returns a short list. -/
theorem C06_too_large_stops (d n : Nat) (h : 2 ^ 63 ≤ (d + n).choose n) :
    tupleListGenerator d (n + 1) = .error .assertFail ∨
    tupleListGenerator d (n + 1) = .error .abort := by
  unfold tupleListGenerator
  rw [binomial_tuple_args, binomial_eq _ _ (by omega)]
  by_cases h2 : (d + n).choose n < 2 ^ 64
  · right
    rw [if_pos h2, convLong_window _ h h2]
    simp only [Res.bind_ok]
    rw [if_pos (by omega)]
  · left
    rw [if_neg h2]; rfl

example : 2 ^ 63 ≤ (34 + 33).choose 33 := by decide +kernel

/-! ### C07 -/

/-- **C07.**  For every degree and number of variables: the dictionary built beside the monomial
list maps the `i`-th monomial to `i`; every monomial of that degree is found at a position which
holds it, without changing the dictionary; any other vector yields 0 and is inserted. -/
theorem C07_reverse_lookup (d n : Nat) (h : (d + n).choose n < 2 ^ 63) :
    ∃ l, tupleListGenerator d (n + 1) = .ok l ∧
      (∀ i (hi : i < l.length), MonMap.get (buildDict l) l[i] = i) ∧
      (∀ t, IsTuple (n + 1) d t →
        l[MonMap.get (buildDict l) t]? = some t ∧ MonMap.touch (buildDict l) t = buildDict l) ∧
      (∀ t, ¬ IsTuple (n + 1) d t → MonMap.get (buildDict l) t = 0 ∧
        MonMap.find? (MonMap.touch (buildDict l) t) t = some 0) := by
  refine ⟨comps n d, tupleListGenerator_eq d n h, ?_, ?_, ?_⟩
  · intro i hi
    simp [MonMap.get, find?_buildDict_of_nodup _ (LexLt_pairwise_nodup (comps_sorted n d)) i hi]
  · intro t ht
    rw [← mem_comps] at ht
    obtain ⟨i, hi, rfl⟩ := List.mem_iff_getElem.1 ht
    have := find?_buildDict_of_nodup _ (LexLt_pairwise_nodup (comps_sorted n d)) i hi
    refine ⟨?_, by simp [MonMap.touch, this]⟩
    simp [MonMap.get, this, hi]
  · intro t ht
    rw [← mem_comps] at ht
    have := find?_buildDict_none _ _ ht
    refine ⟨by simp [MonMap.get, this], ?_⟩
    simp [MonMap.touch, this, MonMap.find?_set]

example : IsTuple 3 2 [1, 0, 1] ∧ ¬ IsTuple 3 2 [1, 1, 1] := by
  simp [IsTuple, NonNeg, deg]

/-- **C07 (any duplicate-free list).**  The same for the dictionary of any list without
repetitions (the cohomology basis). -/
theorem C07_dict_of_nodup (l : List IVec) (hl : l.Nodup) :
    (∀ i (hi : i < l.length), MonMap.find? (buildDict l) l[i] = some i) ∧
    (∀ t, t ∉ l → MonMap.find? (buildDict l) t = none) :=
  ⟨fun i hi => find?_buildDict_of_nodup l hl i hi, fun t ht => find?_buildDict_none l t ht⟩

example : ([[0, 1], [1, 0]] : List IVec).Nodup := by decide

/-! ### C08 -/

/-- **C08.**  For every prime `p` and every `n`, the returned `v` is the exact power of `p` in
`n!`. -/
theorem C08_valuation_of_factorial (n p : Nat) (hp : p.Prime) :
    ∃ v : Nat, valuationOfFactorial n p = .ok (v : Int) ∧
      p ^ v ∣ n.factorial ∧ ¬ p ^ (v + 1) ∣ n.factorial := by
  have := Fact.mk hp
  refine ⟨padicValNat p n.factorial, valuationOfFactorial_eq n p hp, pow_padicValNat_dvd, ?_⟩
  exact pow_succ_padicValNat_not_dvd (Nat.factorial_ne_zero n)

example : valuationOfFactorial 100 5 = .ok 24 := by decide +kernel

/-! ### C09 -/

/-- **C09.**  For `p` prime and `1 ≤ start ≤ n + 1`, over every residue ring: the call returns
(with `start = 1` its cross-check holds), and the product of `start..n` is `p^v` times an integer
prime to `p` whose residue is the returned value. -/
theorem C09_factorial_p_adic {R : Type} [CommRing R] (n p start : Nat) (hp : p.Prime)
    (h1 : 1 ≤ start) (h2 : start ≤ n + 1) :
    ∃ v m : Nat, factorialPAdic n p start = .ok (v, (m : R)) ∧ ¬ p ∣ m ∧
      p ^ v * m = ∏ i ∈ Finset.Icc start n, i := by
  obtain ⟨v, m, e1, e2, e3⟩ := facPLoop_spec (R := R) p hp (n + 1 - start) start 0 1 h1
    (fun h => hp.one_lt.ne' (Nat.dvd_one.1 h))
  have hasc : start.ascFactorial (n + 1 - start) = ∏ i ∈ Finset.Icc start n, i := by
    rw [Nat.ascFactorial_eq_prod_range, ← Finset.Ico_add_one_right_eq_Icc, Finset.prod_Ico_eq_prod_range]
  have hprod : p ^ v * m = ∏ i ∈ Finset.Icc start n, i := by rw [e3, ← hasc]; simp
  refine ⟨v, m, ?_, e2, hprod⟩
  unfold factorialPAdic
  simp only [Nat.cast_one] at e1
  rw [e1]
  simp only [Res.bind_ok]
  split
  · next hs =>
    subst hs
    rw [valuationOfFactorial_eq n p hp]
    have hf : n.factorial = p ^ v * m := by
      rw [hprod, ← Finset.Ico_add_one_right_eq_Icc, Finset.prod_Ico_id_eq_factorial]
    have hfact := Fact.mk hp
    have hm : m ≠ 0 := by rintro rfl; exact e2 (dvd_zero p)
    have hv : padicValNat p n.factorial = v := by
      rw [hf, padicValNat.mul (pow_ne_zero _ hp.ne_zero) hm, padicValNat.prime_pow,
        padicValNat.eq_zero_of_not_dvd e2, add_zero]
    simp [hv]
  · rfl

example : factorialPAdic (R := ℤ) 10 3 4 = .ok (3, 22400) := by decide +kernel

/-- **C09 (ranges containing 0).**  If the range contains 0 the call never returns. -/
theorem C09_zero_diverges {R : Type} [CommRing R] (n p : Nat) :
    factorialPAdic (R := R) n p 0 = .error .diverge := by
  simp [factorialPAdic, facPLoop]

end Verif
