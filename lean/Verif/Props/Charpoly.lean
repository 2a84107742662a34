import Verif.Lemmas.DefaultArgs
import Verif.Lemmas.CharpolyFrobFacts
import Verif.Lemmas.CharpolyFrobSource

/-!
Property theorems C12 (default precisions), C13 (`charpoly`), C14 and C15 (`charpoly_frob`).
-/

namespace Verif

open Spec Polynomial

/-! ### C12 -/

/-- The pairs `(n, d)` the program is documented to have default precisions for. -/
def Spec.defaultPairs : List (Int × Int) :=
  [(2, 3), (2, 4), (2, 5), (2, 6), (2, 7), (2, 8), (2, 9), (3, 4), (3, 5), (3, 6)]

/-- **C12 (domain).**  `default_args` fills its results exactly for the listed `(n, d)`, whatever
`p`, and aborts on every other pair. -/
theorem C12_domain (p n d : Int) :
    ((n, d) ∈ defaultPairs → ∃ a, defaultArgs p n d = .ok a) ∧
    ((n, d) ∉ defaultPairs → defaultArgs p n d = .error .abort) := by
  simp only [defaultPairs, List.mem_cons, Prod.mk.injEq, List.not_mem_nil, or_false, not_or]
  constructor
  · rintro (⟨rfl, rfl⟩ | ⟨rfl, rfl⟩ | ⟨rfl, rfl⟩ | ⟨rfl, rfl⟩ | ⟨rfl, rfl⟩ |
    ⟨rfl, rfl⟩ | ⟨rfl, rfl⟩ | ⟨rfl, rfl⟩ | ⟨rfl, rfl⟩ | ⟨rfl, rfl⟩)
    · exact returns_2_3 p
    · exact returns_2_4 p
    · exact returns_2_5 p
    · exact returns_2_6 p
    · exact returns_2_7 p
    · exact returns_2_8 p
    · exact returns_2_9 p
    · exact returns_3_4 p
    · exact returns_3_5 p
    · exact returns_3_6 p
  · rintro ⟨h1, h2, h3, h4, h5, h6, h7, h8, h9, h10⟩
    unfold defaultArgs
    rw [if_neg h1, if_neg h2, if_neg h3, if_neg h4, if_neg h5, if_neg h6, if_neg h7, if_neg h8,
      if_neg h9, if_neg h10]

/-- **C12 (consistency), for `p >= 3`.**  For every accepted `(n, d)`: the working precision is
positive; `N` has `n` entries between 0 and the working precision; `charpoly_prec` has one entry
more than the rank `b` of the primitive middle cohomology, `d*b = (d-1)^(n+1) + (-1)^(n+1) (d-1)`,
all at least 1; and they meet the bound `charpoly_frob` asserts
(`k * p^prec > 2*b*p^((n-1)*k/2)` for `1 <= k <= b`).  Partial: the property is stated for all
primes and fails at `p = 2`, see `C12_two_wrong`. -/
theorem C12_default_args_partial (p : Nat) (hp : 3 ≤ p) (n d : Int) (a : DefaultArgs)
    (h : defaultArgs p n d = .ok a) :
    0 < a.precision ∧ (a.N.length : ℤ) = n ∧ (∀ x ∈ a.N, 0 ≤ x ∧ x ≤ a.precision) ∧
    ∃ b : Nat, 0 < b ∧ a.charpolyPrec.length = b + 1 ∧
      d * b = (d - 1) ^ (n + 1).toNat + (-1) ^ (n + 1).toNat * (d - 1) ∧
      (∀ x ∈ a.charpolyPrec, 1 ≤ x) ∧
      EnoughPrec b p (n - 1).toNat (fun i => a.charpolyPrec.getD i 0) := by
  have hmem : (n, d) ∈ defaultPairs := by
    by_contra hn
    rw [(C12_domain p n d).2 hn] at h
    cases h
  show RowGood p n d a
  simp only [defaultPairs, List.mem_cons, Prod.mk.injEq, List.not_mem_nil, or_false] at hmem
  rcases hmem with ⟨rfl, rfl⟩ | ⟨rfl, rfl⟩ | ⟨rfl, rfl⟩ | ⟨rfl, rfl⟩ | ⟨rfl, rfl⟩ |
    ⟨rfl, rfl⟩ | ⟨rfl, rfl⟩ | ⟨rfl, rfl⟩ | ⟨rfl, rfl⟩ | ⟨rfl, rfl⟩
  · exact good_2_3 p hp a h
  · exact good_2_4 p hp a h
  · exact good_2_5 p hp a h
  · exact good_2_6 p hp a h
  · exact good_2_7 p hp a h
  · exact good_2_8 p hp a h
  · exact good_2_9 p hp a h
  · exact good_3_4 p hp a h
  · exact good_3_5 p hp a h
  · exact good_3_6 p hp a h

example : ∃ a, defaultArgs ((7 : Nat) : Int) 3 4 = .ok a := ⟨_, rfl⟩

/-- **C12 fails for `p = 2`.**  `default_args` returns precisions for `p = 2`, but with them
`charpoly_frob` returns for no matrix at all.  (With the assertion in exact arithmetic; in floating point see C76.) -/
theorem C12_two_wrong (n d : Int) (h : (n, d) ∈ defaultPairs) :
    ∃ a, defaultArgs ((2 : Nat) : Int) n d = .ok a ∧
      ∀ (M : CMat Int) r, charpolyFrob M a.charpolyPrec 2 (n - 1).toNat ≠ .ok r := by
  have key : ∀ a : DefaultArgs, rowFails 2 n a = true →
      ∀ (M : CMat Int) r, charpolyFrob M a.charpolyPrec 2 (n - 1).toNat ≠ .ok r := by
    intro a ha M r hr
    obtain ⟨_, _, hlen, _, hpa, _⟩ := charpolyFrob_facts (by norm_num) hr
    unfold rowFails at ha
    simp only [List.any_eq_true, List.mem_range, Bool.not_eq_true'] at ha
    obtain ⟨k, hk, hf⟩ := ha
    rw [hlen, Nat.add_sub_cancel] at hf hk
    rw [hpa (k + 1) (by omega) (by omega)] at hf
    cases hf
  simp only [defaultPairs, List.mem_cons, Prod.mk.injEq, List.not_mem_nil, or_false] at h
  rcases h with ⟨rfl, rfl⟩ | ⟨rfl, rfl⟩ | ⟨rfl, rfl⟩ | ⟨rfl, rfl⟩ | ⟨rfl, rfl⟩ | ⟨rfl, rfl⟩ |
    ⟨rfl, rfl⟩ | ⟨rfl, rfl⟩ | ⟨rfl, rfl⟩ | ⟨rfl, rfl⟩ <;>
    exact ⟨_, rfl, key _ (by decide +kernel)⟩

/-! ### C13 -/

/-- **C13.**  `charpoly` returns the coefficients, constant term first, of the characteristic
polynomial of its argument; the exact divisions it asserts never fail. -/
theorem C13_charpoly {n : Nat} (hn : 0 < n) (A : Matrix (Fin n) (Fin n) ℤ) :
    charpoly (CMat.ofMatrix A) = .ok ((List.range (n + 1)).map A.charpoly.coeff) :=
  charpoly_ofMatrix hn A

/-- **C13 (monic).** The last entry is 1 and there are `n+1` entries. -/
theorem C13_monic {n : Nat} (hn : 0 < n) (A : Matrix (Fin n) (Fin n) ℤ) (r : List Int)
    (h : charpoly (CMat.ofMatrix A) = .ok r) : r.length = n + 1 ∧ r[n]? = some 1 := by
  rw [charpoly_ofMatrix hn A] at h
  cases h
  refine ⟨by simp, ?_⟩
  rw [List.getElem?_map, List.getElem?_range (by omega)]
  have h1 := A.charpoly_monic.coeff_natDegree
  rw [Matrix.charpoly_natDegree_eq_dim, Fintype.card_fin] at h1
  simp [h1]

/-- **C13 (other arguments).** A non-square matrix trips the assertion, the 0x0 matrix makes the code
write `p[1]` into a vector of length 1. -/
theorem C13_other_arguments (M : CMat Int) :
    (M.rows ≠ M.cols → charpoly M = .error .assertFail) ∧
    (M.rows = M.cols → M.rows = 0 → charpoly M = .error .ub) := by
  constructor
  · intro h; simp [charpoly, h]
  · intro h h0
    simp only [charpoly, h, decide_true, check_true, Res.bind_ok]
    rw [if_pos (by omega)]

example : charpoly (CMat.ofMatrix !![1, 2; 3, 4]) = .ok [-2, -5, 1] := by decide +kernel

/-! ### C14 -/

/-- **C14.**  Let `P` be monic of degree `b` over the integers, with all roots of absolute value
`p^(dim/2)` (`p` odd) and with the functional equation of sign `ε`.  Let `A` be an integer matrix
whose characteristic polynomial agrees with `P` in coefficient `i` modulo `p^prec[i]`, `0 < i < b`, and let the
precisions meet the asserted bound.  If `ε = -1`, then the dimension must be even and some
coefficient in the lower half must be visible at the shared precision.  Then `charpoly_frob` returns
exactly the coefficients of `P`. -/
theorem C14_charpoly_frob {b : Nat} (hb : 0 < b) (A : Matrix (Fin b) (Fin b) ℤ) (P : ℤ[X])
    (hP : P.Monic) (hdeg : P.natDegree = b) (p dim : Nat) (hp : Odd p) (hW : WeilRoots P p dim)
    (ε : ℤ) (hε : ε = 1 ∨ ε = -1) (hfe : FunctionalEquation P b p dim ε) (prec : List Int)
    (hlen : prec.length = b + 1) (hpos : ∀ x ∈ prec, 0 ≤ x)
    (hA : ∀ i, 1 ≤ i → i < b → A.charpoly.coeff i ≡ P.coeff i [ZMOD (p : ℤ) ^ (prec.getD i 0).toNat])
    (hen : EnoughPrec b p dim (fun i => prec.getD i 0))
    (hsign : ε = 1 ∨ (Even dim ∧ ∃ j, 1 ≤ j ∧ 2 * j ≤ b ∧
      ¬ (p : ℤ) ^ (min (prec.getD j 0) (prec.getD (b - j) 0 + halfWeight b dim j)).toNat ∣ P.coeff j)) :
    charpolyFrob (CMat.ofMatrix A) prec p dim = .ok ((List.range (b + 1)).map P.coeff) :=
  charpolyFrob_ok hb A P hP hdeg p dim hp hW ε hε hfe prec hlen hpos hA hen hsign

/-- **C14 with the default precisions.**  For an odd `p >= 3` and an accepted `(n, d)`, the precisions
of `default_args` are enough: any integer matrix whose characteristic polynomial agrees with the
Frobenius polynomial `P` of degree `b` (the rank, `d*b = (d-1)^(n+1) + (-1)^(n+1)(d-1)`) to those
precisions makes `charpoly_frob` return `P`. -/
theorem C14_default_precisions (p : Nat) (hp3 : 3 ≤ p) (hp : Odd p) (n d : Int) (a : DefaultArgs)
    (ha : defaultArgs p n d = .ok a) {b : Nat}
    (hbd : d * b = (d - 1) ^ (n + 1).toNat + (-1) ^ (n + 1).toNat * (d - 1))
    (A : Matrix (Fin b) (Fin b) ℤ) (P : ℤ[X])
    (hP : P.Monic) (hdeg : P.natDegree = b) (hW : WeilRoots P p (n - 1).toNat)
    (ε : ℤ) (hε : ε = 1 ∨ ε = -1) (hfe : FunctionalEquation P b p (n - 1).toNat ε)
    (hA : ∀ i, 1 ≤ i → i < b →
      A.charpoly.coeff i ≡ P.coeff i [ZMOD (p : ℤ) ^ (a.charpolyPrec.getD i 0).toNat])
    (hsign : ε = 1 ∨ (Even (n - 1).toNat ∧ ∃ j, 1 ≤ j ∧ 2 * j ≤ b ∧
      ¬ (p : ℤ) ^ (min (a.charpolyPrec.getD j 0)
        (a.charpolyPrec.getD (b - j) 0 + halfWeight b (n - 1).toNat j)).toNat ∣ P.coeff j)) :
    charpolyFrob (CMat.ofMatrix A) a.charpolyPrec p (n - 1).toNat
      = .ok ((List.range (b + 1)).map P.coeff) := by
  obtain ⟨_, _, _, b', hb', hlen, hbd', hpos, hen⟩ := C12_default_args_partial p hp3 n d a ha
  have hd0 : d ≠ 0 := by
    rintro rfl
    have hmem : (n, (0 : Int)) ∈ defaultPairs := by
      by_contra hn
      rw [(C12_domain p n 0).2 hn] at ha
      cases ha
    simp [defaultPairs] at hmem
  have hbb : b' = b := by
    have : d * (b' : ℤ) = d * b := by rw [hbd', hbd]
    exact_mod_cast mul_left_cancel₀ hd0 this
  subst hbb
  exact charpolyFrob_ok hb' A P hP hdeg p _ hp hW ε hε hfe _ hlen
    (fun x hx => by have := hpos x hx; omega) hA hen hsign

/-- A Frobenius polynomial of an elliptic curve over the field with 5 elements, and a matrix that has
it only modulo 25. -/
example : charpolyFrob (CMat.ofMatrix !![0, 20; 1, 27]) [2, 2, 2] 5 1 = .ok [5, -2, 1] := by
  have hc : (X ^ 2 - C 2 * X + C 5 : ℤ[X]).natDegree = 2 := by compute_degree!
  have hm : (X ^ 2 - C 2 * X + C 5 : ℤ[X]).Monic := by monicity!
  have c0 : (X ^ 2 - C 2 * X + C 5 : ℤ[X]).coeff 0 = 5 := by simp
  have c1 : (X ^ 2 - C 2 * X + C 5 : ℤ[X]).coeff 1 = -2 := by
    simp [coeff_X, coeff_X_pow]
  have c2 : (X ^ 2 - C 2 * X + C 5 : ℤ[X]).coeff 2 = 1 := by
    simp [coeff_X, coeff_X_pow]
  have := C14_default_precisions 5 (by norm_num) (by decide) 2 3 _ rfl (b := 2) (by decide)
    !![0, 20; 1, 27] (X ^ 2 - C 2 * X + C 5) hm hc (by
      intro z hz
      simp only [map_add, map_sub, map_mul, map_pow, aeval_X, aeval_C] at hz
      have h1 := congrArg Complex.re hz
      have h2 := congrArg Complex.im hz
      simp [pow_two] at h1 h2
      rw [← Complex.normSq_eq_norm_sq, Complex.normSq_apply]
      norm_num
      have h3 : z.im * (z.re - 1) = 0 := by linarith
      rcases mul_eq_zero.1 h3 with h | h
      · rw [h] at h1; nlinarith [sq_nonneg (z.re - 1)]
      · have : z.re = 1 := by linarith
        rw [this] at h1 ⊢; linarith) 1 (Or.inl rfl) (by
      intro i hi
      have : i = 0 ∨ i = 1 := by omega
      rcases this with rfl | rfl
      · rw [c0, c2]; norm_num [halfWeight]
      · rw [c1]; norm_num [halfWeight]) (by
      have hA : (!![0, 20; 1, 27] : Matrix (Fin 2) (Fin 2) ℤ).charpoly = X ^ 2 - C 27 * X + C (-20) := by
        rw [Matrix.charpoly_fin_two, Matrix.trace_fin_two, Matrix.det_fin_two]; simp
      intro i _ hi
      have : i = 0 ∨ i = 1 ∨ i = 2 := by omega
      rw [hA]
      rcases this with rfl | rfl | rfl
      · rw [c0]
        simp only [coeff_add, coeff_sub, coeff_X_pow, coeff_C_mul, coeff_X, coeff_C]
        decide
      · rw [c1]
        simp only [coeff_add, coeff_sub, coeff_X_pow, coeff_C_mul, coeff_X, coeff_C]
        decide
      · rw [c2]
        simp only [coeff_add, coeff_sub, coeff_X_pow, coeff_C_mul, coeff_X, coeff_C]
        decide) (Or.inl rfl)
  rw [show ((2 : ℤ) - 1).toNat = 1 from rfl] at this
  rw [this, show List.range (2 + 1) = [0, 1, 2] from rfl]
  simp only [List.map_cons, List.map_nil, c0, c1, c2]

/-- Even dimension and sign `-1`: the hypotheses on `P = (X - 5)^3` hold, with the sign visible in
coefficient 1. -/
example : charpolyFrob (CMat.ofMatrix !![5, 0, 625; 0, 5, 0; 0, 625, 5]) [4, 4, 4, 4] 5 2
    = .ok [-125, 75, -15, 1] := by
  have hP : (X - C 5 : ℤ[X]) ^ 3 = X ^ 3 - C 15 * X ^ 2 + C 75 * X - C 125 := by
    have h15 : (C 15 : ℤ[X]) = 15 := rfl
    have h5 : (C 5 : ℤ[X]) = 5 := rfl
    have h75 : (C 75 : ℤ[X]) = 75 := rfl
    have h125 : (C 125 : ℤ[X]) = 125 := rfl
    rw [h15, h5, h75, h125]; ring
  have hm : ((X - C 5 : ℤ[X]) ^ 3).Monic := (monic_X_sub_C _).pow _
  have hd : ((X - C 5 : ℤ[X]) ^ 3).natDegree = 3 := by
    rw [(monic_X_sub_C (5 : ℤ)).natDegree_pow, natDegree_X_sub_C]
  have hcf : ∀ i, ((X - C 5 : ℤ[X]) ^ 3).coeff i
      = (if i = 3 then 1 else 0) - 15 * (if i = 2 then 1 else 0)
        + 75 * (if 1 = i then 1 else 0) - (if i = 0 then 125 else 0) := by
    intro i
    rw [hP]
    simp only [coeff_add, coeff_sub, coeff_X_pow, coeff_C_mul, coeff_X, coeff_C]
  have := C14_charpoly_frob (b := 3) (by norm_num) !![5, 0, 625; 0, 5, 0; 0, 625, 5] ((X - C 5) ^ 3) hm hd
    5 2 (by decide) (by
      intro z hz
      simp only [map_sub, map_pow, aeval_X, aeval_C] at hz
      have : z = 5 := by
        have := pow_eq_zero_iff (n := 3) (by norm_num) |>.1 hz
        simpa [sub_eq_zero] using this
      rw [this]; norm_num) (-1) (Or.inr rfl) (by
      intro i hi
      have : i = 0 ∨ i = 1 := by omega
      rw [hcf, hcf]
      rcases this with rfl | rfl <;> simp [halfWeight]) [4, 4, 4, 4] rfl (by decide) (by
      intro i _ hi
      have hA : (!![5, 0, 625; 0, 5, 0; 0, 625, 5] : Matrix (Fin 3) (Fin 3) ℤ).charpoly = (X - C 5) ^ 3 := by
        rw [Matrix.charpoly, Matrix.det_fin_three]
        simp
        ring
      rw [hA]) (by
      intro k h1 h2
      rw [← precAssert_iff]
      have : k = 1 ∨ k = 2 ∨ k = 3 := by omega
      rcases this with rfl | rfl | rfl <;> decide +kernel)
    (Or.inr ⟨by decide, 1, by norm_num, by norm_num, by rw [hcf]; decide +kernel⟩)
  rw [this, show List.range (3 + 1) = [0, 1, 2, 3] from rfl]
  simp only [List.map_cons, List.map_nil, hcf]
  norm_num

/-! ### C15 -/

/-- **C15.**  Whatever the matrix and the precisions, if `charpoly_frob` returns, the matrix was
square, of positive size `b`; the result has length `b+1` and leading coefficient 1; and there is a
sign, 1 for odd dimension, such that the coefficients `i` and `b-i` are related by the functional
equation modulo `p` to the precision they share.  In particular the constant coefficient is
`± p^(b*dim/2)` modulo its shared precision, and the asserted precision bound holds. -/
theorem C15_shape (M : CMat Int) (prec : List Int) (p dim : Nat) (hp : 0 < p) (r : List Int)
    (h : charpolyFrob M prec p dim = .ok r) :
    0 < M.rows ∧ M.rows = M.cols ∧ prec.length = M.rows + 1 ∧ r.length = M.rows + 1 ∧
    r[M.rows]? = some 1 ∧
    EnoughPrec M.rows p dim (fun i => prec.getD i 0) ∧
    ∃ ε : ℤ, (ε = 1 ∨ ε = -1) ∧ (dim % 2 = 1 → ε = 1) ∧
      r.getD 0 0 ≡ ε * (p : ℤ) ^ (M.rows * dim / 2)
        [ZMOD (p : ℤ) ^ (sharedPrec M.rows dim (fun i => prec.getD i 0) 0).toNat] ∧
      ∀ i, 2 * i < M.rows →
        r.getD i 0 ≡ ε * (p : ℤ) ^ halfWeight M.rows dim i * r.getD (M.rows - i) 0
          [ZMOD (p : ℤ) ^ (sharedPrec M.rows dim (fun i => prec.getD i 0) i).toNat] := by
  obtain ⟨h1, h2, h3, h4, h5, h6, ε, h7, h8, h9⟩ := charpolyFrob_facts hp h
  refine ⟨h1, h2, h3, h4, ?_, fun k hk1 hk2 => (precAssert_iff _ _ _ _ _).1 (h5 k hk1 hk2),
    ε, h7, h8, ?_, h9⟩
  · rw [List.getD_eq_getElem?_getD] at h6
    rw [List.getElem?_eq_getElem (by omega)] at h6 ⊢
    simpa using h6
  · have := h9 0 (by omega)
    rw [Nat.sub_zero, h6, mul_one] at this
    exact this

example : ∃ r, charpolyFrob (CMat.ofMatrix !![1, 2; 3, 4]) [3, 3, 3] 7 1 = .ok r :=
  ⟨[7, -5, 1], by decide +kernel⟩

/-- **C15 (which coefficients are kept).**  In each pair of coefficients `i < b - i`, the one whose precision determines the pair is
the coefficient of the characteristic polynomial of the matrix, modulo `p` to its own precision. -/
theorem C15_congruent {b : Nat} (hb : 0 < b) (A : Matrix (Fin b) (Fin b) ℤ) (prec : List Int) (p dim : Nat) (hp : 0 < p)
    (r : List Int) (h : charpolyFrob (CMat.ofMatrix A) prec p dim = .ok r) (i : Nat) (h1 : 1 ≤ i) (h2 : 2 * i < b) :
    (prec.getD (b - i) 0 + halfWeight b dim i ≤ prec.getD i 0 →
      r.getD i 0 ≡ A.charpoly.coeff i [ZMOD (p : ℤ) ^ (prec.getD i 0).toNat]) ∧
    (prec.getD i 0 < prec.getD (b - i) 0 + halfWeight b dim i →
      r.getD (b - i) 0 ≡ A.charpoly.coeff (b - i) [ZMOD (p : ℤ) ^ (prec.getD (b - i) 0).toNat]) := by
  have := charpolyFrob_source hp h (C13_charpoly hb A) i h1 h2
  have e : ∀ k, k < b + 1 → ((List.range (b + 1)).map A.charpoly.coeff).getD k 0 = A.charpoly.coeff k := fun k hk => by
    rw [List.getD_eq_getElem?_getD, List.getElem?_map, List.getElem?_range hk]; rfl
  rw [show (CMat.ofMatrix A).rows = b from rfl, e i (by omega), e (b - i) (by omega)] at this
  exact this

/-- Both cases occur, for a matrix whose characteristic polynomial has the coefficients -6, 11, -6, 1: with the precisions 5, 3
coefficient 1 is kept (161062 is 11 modulo 11^5), with 2, 3 coefficient 2 is. -/
example : charpolyFrob (CMat.ofMatrix !![1, 0, 0; 0, 2, 0; 0, 0, 3]) [6, 5, 3, 3] 11 1 = .ok [1771572, 161062, 11, 1] ∧
    charpolyFrob (CMat.ofMatrix !![1, 0, 0; 0, 2, 0; 0, 0, 3]) [6, 2, 3, 3] 11 1 = .ok [11, 1325, -6, 1] := by
  decide +kernel

end Verif
