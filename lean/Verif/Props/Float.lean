import Verif.Lemmas.Float
import Verif.Lemmas.DefaultArgs
import Verif.Lemmas.Pipeline
import Verif.Props.Charpoly
import Verif.Props.Picard

/-!
# C76: floating point

The models of `charpoly_frob` and `geometric_picard` use an exact comparison and a test `cmp` with the property `CmpOK`.
Here both are derived from what is asked of floating point arithmetic (`FlOK`).
-/

namespace Verif

open Spec

theorem sq_iff {p b k : Nat} (dim P : Nat) :
    ((2 * b : ℝ) * (p : ℝ) ^ ((dim * k : ℝ) / 2) < k * (p : ℝ) ^ P ↔ 4 * b ^ 2 * p ^ (dim * k) < k ^ 2 * p ^ (2 * P)) ∧
    (k * (p : ℝ) ^ P < (2 * b : ℝ) * (p : ℝ) ^ ((dim * k : ℝ) / 2) ↔ k ^ 2 * p ^ (2 * P) < 4 * b ^ 2 * p ^ (dim * k)) := by
  have hp : (0 : ℝ) ≤ p := Nat.cast_nonneg _
  have hx : (0 : ℝ) ≤ k * (p : ℝ) ^ P := by positivity
  have hy : (0 : ℝ) ≤ (2 * b : ℝ) * (p : ℝ) ^ ((dim * k : ℝ) / 2) := by positivity
  have ex : (k * (p : ℝ) ^ P) ^ 2 = ((k ^ 2 * p ^ (2 * P) : Nat) : ℝ) := by push_cast; rw [mul_pow, ← pow_mul, mul_comm P 2]
  have ey : ((2 * b : ℝ) * (p : ℝ) ^ ((dim * k : ℝ) / 2)) ^ 2 = ((4 * b ^ 2 * p ^ (dim * k) : Nat) : ℝ) := by
    have h1 : ((p : ℝ) ^ ((dim * k : ℝ) / 2)) ^ 2 = (p : ℝ) ^ (dim * k) := by
      rw [← Real.rpow_natCast, ← Real.rpow_mul hp, ← Real.rpow_natCast]
      congr 1
      push_cast; ring
    push_cast
    rw [mul_pow, h1]; ring
  constructor
  · rw [← pow_lt_pow_iff_left₀ hy hx (two_ne_zero), ex, ey, Nat.cast_lt]
  · rw [← pow_lt_pow_iff_left₀ hx hy (two_ne_zero), ex, ey, Nat.cast_lt]

/-- **C76 (the assertion).**  For every floating point arithmetic with relative errors at most `u`, where `u` is small
compared with the size of the numbers (`FlSmall`), the assertion of `charpoly_frob` holds if
`2 b p^(dim k/2) < k p^prec`, and fails if `k p^prec < 2 b p^(dim k/2)`. -/
theorem C76_assertion {u : ℝ} (h0 : 0 ≤ u) (h1 : u ≤ 1 / 5) {F : FlOps} (hF : FlOK u F) {p b k : Nat} (hp : 2 ≤ p)
    (hk : 1 ≤ k) (hkb : k ≤ b) (dim P : Nat) (hs : FlSmall u p b dim P k) :
    ((2 * b : ℝ) * (p : ℝ) ^ ((dim * k : ℝ) / 2) < k * (p : ℝ) ^ P → F.precAssert p b dim P k = true) ∧
    (k * (p : ℝ) ^ P < (2 * b : ℝ) * (p : ℝ) ^ ((dim * k : ℝ) / 2) → F.precAssert p b dim P k = false) := by
  obtain ⟨a1, a2⟩ := fl_decides h0 h1 hF hp hk hkb dim P hs
  exact ⟨fun h => a1 ((sq_iff dim P).1.1 h), fun h => a2 ((sq_iff dim P).2.1 h)⟩

/-- **C76 (doubles).**  With `u = 2^-52`: every `p < 2^63`, degrees up to 1024, precisions up to 4096. -/
theorem C76_double {u : ℝ} (h0 : 0 ≤ u) (hu : u ≤ 1 / 2 ^ 52) {F : FlOps} (hF : FlOK u F) {p b k : Nat} (hp : 2 ≤ p)
    (hp' : p < 2 ^ 63) (hk : 1 ≤ k) (hkb : k ≤ b) (hb : b ≤ 2 ^ 10) (dim P : Nat) (hP : P ≤ 2 ^ 12)
    (hd : dim * k ≤ 2 ^ 13) :
    ((2 * b : ℝ) * (p : ℝ) ^ ((dim * k : ℝ) / 2) < k * (p : ℝ) ^ P → F.precAssert p b dim P k = true) ∧
    (k * (p : ℝ) ^ P < (2 * b : ℝ) * (p : ℝ) ^ ((dim * k : ℝ) / 2) → F.precAssert p b dim P k = false) :=
  C76_assertion h0 (hu.trans (by norm_num)) hF hp hk hkb dim P (flSmall_double hp hp' hk hkb hb hP hd h0 hu)

/-- **C76 (`charpoly_frob`).**  If in addition the two sides are nowhere equal, `charpoly_frob` with the floating point
assertion is `charpoly_frob` with the exact one, for every matrix. -/
theorem C76_charpoly_frob {u : ℝ} (h0 : 0 ≤ u) (hu : u ≤ 1 / 2 ^ 52) {F : FlOps} (hF : FlOK u F) (M : CMat Int)
    (prec : List Int) (p dim : Nat) (hp : 2 ≤ p) (hp' : p < 2 ^ 63) (hb : M.rows ≤ 2 ^ 10) (hd : dim * M.rows ≤ 2 ^ 13)
    (hP : ∀ k, 1 ≤ k → k ≤ M.rows → sharedPrec M.rows dim (fun i => prec.getD i 0) (M.rows - k) ≤ 2 ^ 12)
    (hne : ∀ k, 1 ≤ k → k ≤ M.rows →
      k * (p : ℝ) ^ (sharedPrec M.rows dim (fun i => prec.getD i 0) (M.rows - k)) ≠
        (2 * M.rows : ℝ) * (p : ℝ) ^ ((dim * k : ℝ) / 2)) :
    charpolyFrobF F M prec p dim = charpolyFrob M prec p dim := by
  rw [charpolyFrobF, charpolyFrob_eq_with]
  refine charpolyFrobWith_congr (by omega) (fun _ k hk1 hk2 h => ?_)
  have hP := hP k hk1 hk2
  have hne := hne k hk1 hk2
  obtain ⟨P, hPe⟩ := Int.eq_ofNat_of_zero_le h
  rw [hPe] at hP hne ⊢
  rw [zpow_natCast] at hne
  have hdk : dim * k ≤ 2 ^ 13 := (Nat.mul_le_mul_left _ hk2).trans hd
  obtain ⟨a1, a2⟩ := C76_double h0 hu hF hp hp' hk1 hk2 hb dim P (by exact_mod_cast hP) hdk
  rw [Bool.eq_iff_iff, precAssert_iff, zpow_natCast]
  constructor
  · intro ht
    refine ⟨by omega, ?_⟩
    by_contra hc
    rw [a2 (lt_of_le_of_ne (not_lt.1 hc) hne)] at ht
    cases ht
  · rintro ⟨-, h⟩; exact a1 h

/-- The sizes in the table of `default_args`. -/
theorem defaultArgs_sizes {p n d : Int} {a : DefaultArgs} (h : defaultArgs p n d = .ok a) :
    (∀ x ∈ a.charpolyPrec, x ≤ 117) ∧ a.charpolyPrec.length ≤ 106 ∧ (n - 1).toNat ≤ 2 := by
  have hmem := defaultPairs_mem h
  simp only [defaultPairs, List.mem_cons, Prod.mk.injEq, List.not_mem_nil, or_false] at hmem
  obtain ⟨rfl, rfl⟩ | ⟨rfl, rfl⟩ | ⟨rfl, rfl⟩ | ⟨rfl, rfl⟩ | ⟨rfl, rfl⟩ | ⟨rfl, rfl⟩ | ⟨rfl, rfl⟩ | ⟨rfl, rfl⟩ |
    ⟨rfl, rfl⟩ | ⟨rfl, rfl⟩ := hmem
  · rw [da_2_3] at h; split_ifs at h <;> (cases h; decide)
  · rw [da_2_4] at h; split_ifs at h <;> (cases h; decide)
  · rw [da_2_5] at h; split_ifs at h <;> (cases h; decide)
  · rw [da_2_6] at h; split_ifs at h <;> (cases h; decide)
  · rw [da_2_7] at h; split_ifs at h <;> (cases h; decide)
  · rw [da_2_8] at h; split_ifs at h <;> (cases h; decide)
  · rw [da_2_9] at h; split_ifs at h <;> (cases h; decide)
  · rw [da_3_4] at h; split_ifs at h <;> (cases h; decide)
  · rw [da_3_5] at h; split_ifs at h <;> (cases h; decide)
  · rw [da_3_6] at h; split_ifs at h <;> (cases h; decide)

theorem getD_le_of_mem {l : List Int} {B : Int} (hB : 0 ≤ B) (h : ∀ x ∈ l, x ≤ B) (i : Nat) : l.getD i 0 ≤ B := by
  by_cases hi : i < l.length
  · rw [List.getD_eq_getElem?_getD, List.getElem?_eq_getElem hi, Option.getD_some]
    exact h _ (List.getElem_mem hi)
  · rw [List.getD_eq_getElem?_getD, List.getElem?_eq_none (by omega)]; exact hB

/-- **C76 (default precisions).**  With the precisions of `default_args` and any `p` with `3 <= p < 2^63`, rounding changes
nothing: `charpoly_frob` in floating point is the exact one, for every matrix. -/
theorem C76_default_precisions {u : ℝ} (h0 : 0 ≤ u) (hu : u ≤ 1 / 2 ^ 52) {F : FlOps} (hF : FlOK u F) (M : CMat Int)
    (p : Nat) (hp : 3 ≤ p) (hp' : p < 2 ^ 63) (n d : Int) (a : DefaultArgs) (ha : defaultArgs p n d = .ok a) :
    charpolyFrobF F M a.charpolyPrec p (n - 1).toNat = charpolyFrob M a.charpolyPrec p (n - 1).toNat := by
  obtain ⟨-, -, -, b, hb, hlen, -, -, hen⟩ := C12_default_args_partial p hp n d a ha
  obtain ⟨s1, s2, s3⟩ := defaultArgs_sizes ha
  by_cases hM : M.rows = b
  · subst hM
    have hhw : ∀ i, halfWeight M.rows (n - 1).toNat i ≤ 105 := by
      intro i
      unfold halfWeight
      have : (M.rows - 2 * i) * (n - 1).toNat ≤ 105 * 2 := Nat.mul_le_mul (by omega) s3
      omega
    refine C76_charpoly_frob h0 hu hF M _ p _ (by omega) hp' (by omega) ?_ ?_ ?_
    · have : (n - 1).toNat * M.rows ≤ 2 * 105 := Nat.mul_le_mul s3 (by omega)
      omega
    · intro k _ _
      have g1 := getD_le_of_mem (by norm_num) s1 (M.rows - k)
      have g2 := getD_le_of_mem (by norm_num) s1 (M.rows - (M.rows - k))
      have g3 := hhw (M.rows - k)
      have g4 := hhw (M.rows - (M.rows - k))
      unfold sharedPrec
      dsimp only
      split
      · exact max_le (by omega) (by omega)
      · exact max_le (by omega) (by omega)
    · intro k hk1 hk2
      exact (hen k hk1 hk2).2.ne'
  · rw [charpolyFrobF, charpolyFrob_eq_with]
    exact charpolyFrobWith_congr (by omega) (fun h => absurd (by omega) hM)

/-- A row of the table for which the assertion fails at `p` by more than rounding. -/
def rowLow (p : Nat) (n : Int) (a : DefaultArgs) : Bool :=
  let b := a.charpolyPrec.length - 1
  let dim := (n - 1).toNat
  decide (b ≤ 105 ∧ dim ≤ 2) && (List.range b).any (fun k =>
    let x := sharedPrec b dim (fun i => a.charpolyPrec.getD i 0) (b - (k + 1))
    decide (0 ≤ x ∧ x ≤ 4096 ∧ (k + 1) ^ 2 * p ^ (2 * x.toNat) < 4 * b ^ 2 * p ^ (dim * (k + 1))))

/-- **C76 (`p = 2`).**  For `p = 2` and every accepted `(n, d)` other than `(2, 6)` and `(2, 9)` the floating point assertion
fails too: `charpoly_frob` returns for no matrix (C12).  For these two see `C76_tie_undecided`. -/
theorem C76_two_wrong {u : ℝ} (h0 : 0 ≤ u) (hu : u ≤ 1 / 2 ^ 52) {F : FlOps} (hF : FlOK u F) (n d : Int)
    (h : (n, d) ∈ defaultPairs) (h26 : (n, d) ≠ (2, 6)) (h29 : (n, d) ≠ (2, 9)) :
    ∃ a, defaultArgs ((2 : Nat) : Int) n d = .ok a ∧
      ∀ (M : CMat Int) r, charpolyFrobF F M a.charpolyPrec 2 (n - 1).toNat ≠ .ok r := by
  have key : ∀ a : DefaultArgs, rowLow 2 n a = true →
      ∀ (M : CMat Int) r, charpolyFrobF F M a.charpolyPrec 2 (n - 1).toNat ≠ .ok r := by
    intro a ha M r hr
    obtain ⟨hlen, hpa⟩ := charpolyFrobWith_facts (by norm_num) hr
    unfold rowLow at ha
    simp only [Bool.and_eq_true, List.any_eq_true, List.mem_range, decide_eq_true_eq] at ha
    rw [hlen, Nat.add_sub_cancel] at ha
    obtain ⟨⟨hb, hdim⟩, k, hk, hx0, hx1, hlt⟩ := ha
    have hpa := hpa (k + 1) (by omega) (by omega)
    obtain ⟨P, hPe⟩ := Int.eq_ofNat_of_zero_le hx0
    rw [hPe] at hx1 hlt hpa
    have hdk : (n - 1).toNat * (k + 1) ≤ 2 ^ 13 := (Nat.mul_le_mul hdim (by omega : k + 1 ≤ 105)).trans (by norm_num)
    have := (C76_double h0 hu hF (le_refl 2) (by norm_num) (by omega) (show k + 1 ≤ M.rows by omega) (by omega) (n - 1).toNat P
      (by omega) hdk).2 ((sq_iff _ P).2.2 (by simpa using hlt))
    rw [this] at hpa
    cases hpa
  simp only [defaultPairs, List.mem_cons, Prod.mk.injEq, List.not_mem_nil, or_false] at h
  rcases h with ⟨rfl, rfl⟩ | ⟨rfl, rfl⟩ | ⟨rfl, rfl⟩ | ⟨rfl, rfl⟩ | ⟨rfl, rfl⟩ | ⟨rfl, rfl⟩ |
    ⟨rfl, rfl⟩ | ⟨rfl, rfl⟩ | ⟨rfl, rfl⟩ | ⟨rfl, rfl⟩
  · exact ⟨_, rfl, key _ (by decide +kernel)⟩
  · exact ⟨_, rfl, key _ (by decide +kernel)⟩
  · exact ⟨_, rfl, key _ (by decide +kernel)⟩
  · exact absurd rfl h26
  · exact ⟨_, rfl, key _ (by decide +kernel)⟩
  · exact ⟨_, rfl, key _ (by decide +kernel)⟩
  · exact absurd rfl h29
  · exact ⟨_, rfl, key _ (by decide +kernel)⟩
  · exact ⟨_, rfl, key _ (by decide +kernel)⟩
  · exact ⟨_, rfl, key _ (by decide +kernel)⟩

/-! ### An equality -/

/-- Exact arithmetic. -/
noncomputable def exactOps : FlOps := ⟨fun m => Real.log m, fun x y => x + y, fun x y => x / y, fun x y => x * y⟩

/-- Exact but for `log(j)`, which is rounded up. -/
noncomputable def upOps (j : Nat) (u : ℝ) : FlOps :=
  ⟨fun m => if m = j then (1 + u) * Real.log j else Real.log m, fun x y => x + y, fun x y => x / y, fun x y => x * y⟩

theorem exactOps_ok {u : ℝ} (hu : 0 ≤ u) : FlOK u exactOps where
  log m _ := by simp only [exactOps, sub_self, abs_zero]; exact mul_nonneg hu (Real.log_natCast_nonneg m)
  add x y := by simp only [exactOps, sub_self, abs_zero]; positivity
  div x y _ := by simp only [exactOps, sub_self, abs_zero]; positivity
  mul x y := by simp only [exactOps, sub_self, abs_zero]; positivity
  add_int x y m _ h := by exact h
  div_int x y m _ _ h := by exact h
  mul_int x y m _ h := by exact h

theorem upOps_ok (j : Nat) {u : ℝ} (hu : 0 ≤ u) : FlOK u (upOps j u) where
  log m _ := by
    simp only [upOps]
    split
    · rename_i h
      subst h
      have : 0 ≤ Real.log m := Real.log_natCast_nonneg m
      rw [show (1 + u) * Real.log m - Real.log m = u * Real.log m by ring, abs_of_nonneg (mul_nonneg hu this)]
    · rw [sub_self, abs_zero]; exact mul_nonneg hu (Real.log_natCast_nonneg m)
  add x y := by simp only [upOps, sub_self, abs_zero]; positivity
  div x y _ := by simp only [upOps, sub_self, abs_zero]; positivity
  mul x y := by simp only [upOps, sub_self, abs_zero]; positivity
  add_int x y m _ h := by exact h
  div_int x y m _ _ h := by exact h
  mul_int x y m _ h := by exact h

theorem tie_undecided {u : ℝ} (hu : 0 < u) (c : Nat) (hc : 2 ≤ c) :
    (∃ F, FlOK u F ∧ F.precAssert 2 (2 * (2 * c)) 1 ((c + 2 : Nat) : Int) (2 * c) = true) ∧
      ∃ F, FlOK u F ∧ F.precAssert 2 (2 * (2 * c)) 1 ((c + 2 : Nat) : Int) (2 * c) = false := by
  have hk : (1 : ℝ) < (2 * c : Nat) := by exact_mod_cast (by omega : 1 < 2 * c)
  have h40 : Real.log ((2 * (2 * (2 * c)) : Nat) : ℝ) = 2 * Real.log 2 + Real.log ((2 * c : Nat) : ℝ) := by
    rw [show ((2 * (2 * (2 * c)) : Nat) : ℝ) = 2 ^ 2 * ((2 * c : Nat) : ℝ) by push_cast; ring,
      Real.log_mul (by norm_num) (by linarith), Real.log_pow]
    push_cast; ring
  have l2 : 0 < Real.log 2 := Real.log_pos (by norm_num)
  have lk : 0 < Real.log ((2 * c : Nat) : ℝ) := Real.log_pos hk
  have e0 : (((c + 2 : Nat) : Int) : ℝ) = c + 2 := by push_cast; rfl
  have e3 : (1 / 2 : ℝ) * ((1 : Nat) : ℝ) * ((2 * c : Nat) : ℝ) = c := by push_cast; ring
  have e1 : (2 * Real.log 2 + Real.log ((2 * c : Nat) : ℝ)) / Real.log (2 : Nat)
      = 2 + Real.log ((2 * c : Nat) : ℝ) / Real.log 2 := by
    rw [Nat.cast_ofNat, add_div, mul_div_assoc, div_self l2.ne', mul_one]
  refine ⟨⟨upOps (2 * c) u, upOps_ok _ hu.le, ?_⟩, ⟨exactOps, exactOps_ok hu.le, ?_⟩⟩
  · unfold FlOps.precAssert FlOps.lhs FlOps.rhs
    rw [decide_eq_true_iff]
    simp only [upOps]
    rw [if_neg (by omega), if_neg (by omega), if_pos trivial, h40, e1, e0, e3, Nat.cast_ofNat, mul_div_assoc, add_mul, one_mul]
    have : 0 < u * (Real.log ((2 * c : Nat) : ℝ) / Real.log 2) := by positivity
    linarith
  · unfold FlOps.precAssert FlOps.lhs FlOps.rhs
    rw [decide_eq_false_iff_not, not_lt]
    simp only [exactOps]
    rw [h40, e1, e0, e3, Nat.cast_ofNat]
    linarith

/-- **C76 (equalities).**  For `p = 2` and `(n, d) = (2, 6)` the precision of coefficient 10 of 20 is 7 after the symmetry,
and `10 * 2^7 = 2 * 20 * 2^(10/2)`; for `(2, 9)` that of coefficient 28 of 56 is 16 and `28 * 2^16 = 2 * 56 * 2^(28/2)`.
Whether the assertion holds depends on the rounding of the logarithms, however small the errors are. -/
theorem C76_tie_undecided {u : ℝ} (hu : 0 < u) :
    ((∃ a, defaultArgs ((2 : Nat) : Int) 2 6 = .ok a ∧ a.charpolyPrec.length = 21 ∧
        sharedPrec 20 1 (fun i => a.charpolyPrec.getD i 0) (20 - 10) = 7) ∧
      (∃ F, FlOK u F ∧ F.precAssert 2 20 1 7 10 = true) ∧ ∃ F, FlOK u F ∧ F.precAssert 2 20 1 7 10 = false) ∧
    (∃ a, defaultArgs ((2 : Nat) : Int) 2 9 = .ok a ∧ a.charpolyPrec.length = 57 ∧
        sharedPrec 56 1 (fun i => a.charpolyPrec.getD i 0) (56 - 28) = 16) ∧
      (∃ F, FlOK u F ∧ F.precAssert 2 56 1 16 28 = true) ∧ ∃ F, FlOK u F ∧ F.precAssert 2 56 1 16 28 = false :=
  ⟨⟨⟨_, rfl, by decide +kernel, by decide +kernel⟩, tie_undecided hu 5 (by norm_num)⟩,
    ⟨_, rfl, by decide +kernel, by decide +kernel⟩, tie_undecided hu 14 (by norm_num)⟩

/-! ### geometric_picard -/

/-- **C76 (`geometric_picard`).**  The loop test `((double)k)/(log(k)/log(2) + 1) <= degree`, evaluated in floating point with
relative errors at most `1/1000`, has the property `CmpOK` that C43 asks for. -/
theorem C76_picard {u : ℝ} (h0 : 0 ≤ u) (hu : u ≤ 1 / 1000) {F : FlOps} (hF : FlOK u F) : CmpOK F.cmp := by
  have h5 : u ≤ 1 / 5 := hu.trans (by norm_num)
  have l2 : 0 < Real.log 2 := Real.log_pos (by norm_num)
  have hf2 : F.log 2 ≠ 0 := by
    have := abs_le.1 (hF.log 2 (by norm_num))
    push_cast at this
    have : 0 < F.log 2 := by nlinarith
    exact this.ne'
  have hf1 : F.log 1 = 0 := by
    have := hF.log 1 le_rfl
    simp only [Nat.cast_one, Real.log_one, sub_zero, mul_zero] at this
    exact abs_eq_zero.1 (le_antisymm this (abs_nonneg _))
  -- the computed value for k >= 3
  have hval : ∀ k : Nat, 3 ≤ k → 0 < Real.logb 2 k + 1 ∧
      (1 - u) * k ≤ F.div k (F.add (F.div (F.log k) (F.log 2)) 1) * ((1 + 6 * u) * (Real.logb 2 k + 1)) ∧
      F.div k (F.add (F.div (F.log k) (F.log 2)) 1) * ((1 - 6 * u) * (Real.logb 2 k + 1)) ≤ (1 + u) * k ∧
      0 < F.div k (F.add (F.div (F.log k) (F.log 2)) 1) := by
    intro k hk
    have hq := fl_quot h0 h5 hF (show 1 ≤ k by omega) (le_refl 2)
    have hlb : Real.logb 2 k = Real.log k / Real.log (2 : Nat) := by rw [Real.logb]; norm_num
    rw [← hlb] at hq
    have hl0 : 0 ≤ Real.logb 2 k := by
      rw [hlb]; exact div_nonneg (Real.log_natCast_nonneg _) (Real.log_natCast_nonneg _)
    have hD := abs_le.1 (fl_add h0 h5 hF hl0 zero_le_one hq (y' := 1) (by rw [sub_self, abs_zero]; linarith))
    set D := Real.logb 2 k + 1 with hDdef
    have hDpos : 0 < D := by linarith
    set D' := F.add (F.div (F.log k) (F.log 2)) 1 with hD'
    have hk0 : (0 : ℝ) < k := by exact_mod_cast (by omega : 0 < k)
    have huD : u * D ≤ 1 / 1000 * D := mul_le_mul_of_nonneg_right hu hDpos.le
    have hD'pos : 0 < D' := by nlinarith
    have hc := abs_le.1 (hF.div k D' hD'pos.ne')
    rw [abs_of_pos (div_pos hk0 hD'pos)] at hc
    set c := F.div k D' with hcdef
    have hkD : (k : ℝ) / D' * D' = k := div_mul_cancel₀ _ hD'pos.ne'
    have hcl : (1 - u) * ((k : ℝ) / D') ≤ c := by linarith
    have hcu : c ≤ (1 + u) * ((k : ℝ) / D') := by linarith
    have hqpos : 0 < (k : ℝ) / D' := div_pos hk0 hD'pos
    have hcpos : 0 < c := lt_of_lt_of_le (mul_pos (by linarith) hqpos) hcl
    refine ⟨hDpos, ?_, ?_, hcpos⟩
    · have h1 : (1 - u) * k ≤ c * D' := by
        have := mul_le_mul_of_nonneg_right hcl hD'pos.le
        rwa [mul_assoc, hkD] at this
      exact h1.trans (mul_le_mul_of_nonneg_left (by linarith) hcpos.le)
    · have h1 : c * D' ≤ (1 + u) * k := by
        have := mul_le_mul_of_nonneg_right hcu hD'pos.le
        rwa [mul_assoc, hkD] at this
      exact (mul_le_mul_of_nonneg_left (by linarith) hcpos.le).trans h1
  refine ⟨fun d => ?_, fun d => ?_, fun k d hk h => ?_, fun k d hk h => ?_, fun k d d' hd h => ?_⟩
  · have e1 : F.div (F.log 1) (F.log 2) = ((0 : ℤ) : ℝ) := hF.div_int _ _ 0 hf2 (by norm_num) (by rw [hf1]; simp)
    have e2 : F.add ((0 : ℤ) : ℝ) 1 = ((1 : ℤ) : ℝ) := hF.add_int _ _ 1 (by norm_num) (by norm_num)
    have e3 : F.div ((1 : Nat) : ℝ) ((1 : ℤ) : ℝ) = ((1 : ℤ) : ℝ) :=
      hF.div_int _ _ 1 (by norm_num) (by norm_num) (by norm_num)
    unfold FlOps.cmp
    rw [decide_eq_true_iff, e1, e2, e3]
    norm_num
  · have e1 : F.div (F.log 2) (F.log 2) = ((1 : ℤ) : ℝ) := hF.div_int _ _ 1 hf2 (by norm_num) (by rw [div_self hf2]; simp)
    have e2 : F.add ((1 : ℤ) : ℝ) 1 = ((2 : ℤ) : ℝ) := hF.add_int _ _ 2 (by norm_num) (by norm_num)
    have e3 : F.div ((2 : Nat) : ℝ) ((2 : ℤ) : ℝ) = ((1 : ℤ) : ℝ) :=
      hF.div_int _ _ 1 (by norm_num) (by norm_num) (by norm_num)
    unfold FlOps.cmp
    rw [decide_eq_true_iff, e1, e2, e3]
    norm_num
  · obtain ⟨hD, -, h3, hc⟩ := hval k hk
    unfold FlOps.cmp
    rw [decide_eq_true_iff]
    have hd0 : (0 : ℝ) ≤ d := Nat.cast_nonneg _
    have hk0 : (0 : ℝ) ≤ k := Nat.cast_nonneg _
    have h6 : (0 : ℝ) < (1 - 6 * u) * (Real.logb 2 k + 1) := mul_pos (by linarith) hD
    refine le_of_mul_le_mul_right (h3.trans ?_) h6
    have h7 : (1 + u) * (k : ℝ) ≤ (1 + u) * (100 / 101 * (d * (Real.logb 2 k + 1))) :=
      mul_le_mul_of_nonneg_left (by linarith) (by linarith)
    have h8 : 0 ≤ (d : ℝ) * (Real.logb 2 k + 1) := mul_nonneg hd0 hD.le
    have h9 : (1 + u) * (100 / 101) * (d * (Real.logb 2 k + 1)) ≤ (1 - 6 * u) * (d * (Real.logb 2 k + 1)) :=
      mul_le_mul_of_nonneg_right (by linarith) h8
    nlinarith
  · obtain ⟨hD, h2, -, hc⟩ := hval k hk
    unfold FlOps.cmp
    rw [decide_eq_false_iff_not, not_le]
    have hd0 : (0 : ℝ) ≤ d := Nat.cast_nonneg _
    rcases hd0.eq_or_lt with hd | hd
    · rw [← hd]; exact hc
    have h6 : (0 : ℝ) < (1 + 6 * u) * (Real.logb 2 k + 1) := mul_pos (by linarith) hD
    refine lt_of_mul_lt_mul_right (lt_of_lt_of_le ?_ h2) h6.le
    have h8 : 0 < (d : ℝ) * (Real.logb 2 k + 1) := mul_pos hd hD
    have h7 : (1 - u) * (101 / 100 * (d * (Real.logb 2 k + 1))) ≤ (1 - u) * (k : ℝ) :=
      mul_le_mul_of_nonneg_left (by linarith) (by linarith)
    have h9 : (1 + 6 * u) * (d * (Real.logb 2 k + 1)) < (1 - u) * (101 / 100) * (d * (Real.logb 2 k + 1)) :=
      mul_lt_mul_of_pos_right (by linarith) h8
    nlinarith
  · unfold FlOps.cmp at h ⊢
    rw [decide_eq_true_iff] at h ⊢
    exact h.trans (by exact_mod_cast hd)

/-- Cases for the theorems above: arithmetic with a rounding error of `2^-52` in one place, and the elliptic curves
modulo 5 with the precisions `[2, 2, 2]`: `2 * 2 * 5^(1/2) < 5^2`. -/
example : FlOK (1 / 2 ^ 52) (upOps 10 (1 / 2 ^ 52)) ∧ FlOK (1 / 1000) exactOps ∧ (upOps 10 (1 / 2 ^ 52)).log 10 ≠ Real.log 10 ∧
    defaultArgs ((5 : Nat) : Int) 2 3 = .ok ⟨3, [2, 2], [2, 2, 2]⟩ ∧
    (upOps 10 (1 / 2 ^ 52)).precAssert 5 2 1 2 1 = true ∧ (upOps 10 (1 / 2 ^ 52)).precAssert 5 2 1 0 1 = false := by
  have hF := upOps_ok 10 (show (0 : ℝ) ≤ 1 / 2 ^ 52 by positivity)
  refine ⟨hF, exactOps_ok (by norm_num), ?_, rfl, ?_, ?_⟩
  · have : 0 < Real.log 10 := Real.log_pos (by norm_num)
    simp only [upOps, if_true]
    push_cast
    intro h
    nlinarith
  · exact (C76_double (p := 5) (b := 2) (k := 1) (by positivity) le_rfl hF (by norm_num) (by norm_num) le_rfl (by norm_num)
      (by norm_num) 1 2 (by norm_num) (by norm_num)).1 ((sq_iff 1 2).1.2 (by norm_num))
  · exact (C76_double (p := 5) (b := 2) (k := 1) (by positivity) le_rfl hF (by norm_num) (by norm_num) le_rfl (by norm_num)
      (by norm_num) 1 0 (by norm_num) (by norm_num)).2 ((sq_iff 1 0).2.2 (by norm_num))

end Verif
