import Verif.Lemmas.CharDigits
import Verif.Spec.CharDigits
import Verif.Lemmas.Pipeline
import Verif.Props.Digits
import Verif.Props.Charpoly

/-!
# C77: the digits of the matrix determine the digits of the characteristic polynomial

The columns of pole order `m` are divisible by `p^(n-m)`; this is what makes the precisions in `default_args` and in
`zeta_function` enough.
-/

namespace Verif

open Spec Finset

variable {R : Type} [CommRing R] [DecidableEq R] {solve : Solver R} {q n d : ℕ} {f : MonMap R} {D : DR R}

theorem basis_pole_order (hC : Constructed solve q f n d D) (j : Fin D.basis.length) :
    1 ≤ poleOrder n d D.basis[j] ∧ poleOrder n d D.basis[j] ≤ n := by
  obtain ⟨e1, e2, hI⟩ := hC.init
  have h := basis_pole hI.basis (by have := hI.ok.hd; omega) (List.getElem?_eq_getElem j.2)
  rw [e1, e2] at h
  exact ⟨h.1, h.2.1⟩

/-- **C77 (digits of the characteristic polynomial).**  For every object built by the constructor and every ring: let the columns of
pole order `m` of `Ψ` be divisible by `x^(n-m)` and let `Φ` agree with `Ψ` modulo `x^(dig m)` there, `n - m <= dig m`.  Then the
coefficients of degree `b - k` of the characteristic polynomials agree modulo `x^T` if, for every `m`, `T` is at most `dig m` plus the
least possible sum of the exponents `n - m'` of `k - 1` other columns; with `c_t` columns of exponent at most `t` in the basis this is
`Σ_t (k - 1 - c_t)`, the sum over `t < n - 1`, the column itself not counted. -/
theorem C77_determined {A : Type*} [CommRing A] (x : A) (hC : Constructed solve q f n d D) (dig : ℕ → ℕ)
    (hdig : ∀ m, 1 ≤ m → m ≤ n → n - m ≤ dig m) (Φ Ψ : Matrix (Fin D.basis.length) (Fin D.basis.length) A)
    (hΨ : ∀ i j, x ^ (n - poleOrder n d D.basis[j]) ∣ Ψ i j)
    (hΦ : ∀ i j, x ^ dig (poleOrder n d D.basis[j]) ∣ Φ i j - Ψ i j) (k T : ℕ) (hk : k ≤ D.basis.length)
    (hT : ∀ m, 1 ≤ m → m ≤ n → T ≤ dig m + ∑ t ∈ range (n - 1),
      ((k - 1) - (D.basis.countP (fun b => decide (n - poleOrder n d b ≤ t)) - if n - m ≤ t then 1 else 0))) :
    x ^ T ∣ Φ.charpoly.coeff (D.basis.length - k) - Ψ.charpoly.coeff (D.basis.length - k) := by
  have hcard : Fintype.card (Fin D.basis.length) = D.basis.length := Fintype.card_fin _
  have key := dvd_charpoly_sub x Φ Ψ (fun j => n - poleOrder n d D.basis[j]) (fun j => dig (poleOrder n d D.basis[j])) T k
    (by rw [hcard]; exact hk)
    (fun i j => by
      have h1 := (pow_dvd_pow x (hdig _ (basis_pole_order hC j).1 (basis_pole_order hC j).2)).trans (hΦ i j)
      have := dvd_add h1 (hΨ i j)
      rwa [sub_add_cancel] at this) hΨ hΦ (fun s hs j hj => by
      refine (hT _ (basis_pole_order hC j).1 (basis_pole_order hC j).2).trans (Nat.add_le_add_left ?_ _)
      have := sum_ge (fun j : Fin D.basis.length => n - poleOrder n d D.basis[j]) s j hj (n - 1)
      rw [hs] at this
      refine le_trans (le_of_eq ?_) this
      refine Finset.sum_congr rfl (fun t _ => ?_)
      rw [card_filter_getElem (fun b : IVec => n - poleOrder n d b ≤ t)])
  rwa [hcard] at key

/-! ### The tables -/

/-- The inequalities of `C77_determined` for the precisions `prec` and all `0 < k < b`. -/
def digitsOK (n d : ℕ) (dig : ℕ → ℕ) (prec : List ℤ) : Bool :=
  (List.range n).all (fun m => decide (n - (m + 1) ≤ dig (m + 1))) &&
  (List.range (prec.length - 1)).all (fun k => (List.range n).all (fun m =>
    decide ((prec.getD (prec.length - 1 - k) 0).toNat ≤ dig (m + 1) + ((List.range (n - 1)).map (fun t =>
      (k - 1) - (poleCount n d t - if n - (m + 1) ≤ t then 1 else 0))).sum)))

theorem congr_of_ok {A : Type*} [CommRing A] (x : A) (hC : Constructed solve q f n d D) {dig dig' : ℕ → ℕ}
    (hle : ∀ m, 1 ≤ m → m ≤ n → dig m ≤ dig' m) {prec : List ℤ} (hlen : prec.length = D.basis.length + 1)
    (hok : digitsOK n d dig prec = true) (Φ Ψ : Matrix (Fin D.basis.length) (Fin D.basis.length) A)
    (hΨ : ∀ i j, x ^ (n - poleOrder n d D.basis[j]) ∣ Ψ i j)
    (hΦ : ∀ i j, x ^ dig' (poleOrder n d D.basis[j]) ∣ Φ i j - Ψ i j) (i : ℕ) (h1 : 1 ≤ i) (hi : i < D.basis.length) :
    x ^ (prec.getD i 0).toNat ∣ Φ.charpoly.coeff i - Ψ.charpoly.coeff i := by
  simp only [digitsOK, Bool.and_eq_true, List.all_eq_true, List.mem_range, decide_eq_true_eq] at hok
  obtain ⟨o1, o2⟩ := hok
  have h := C77_determined x hC dig' (fun m m1 m2 => by
      have := o1 (m - 1) (by omega)
      rw [Nat.sub_add_cancel m1] at this
      exact this.trans (hle m m1 m2)) Φ Ψ hΨ hΦ (D.basis.length - i) (prec.getD i 0).toNat (by omega) (fun m m1 m2 => by
      have := o2 (D.basis.length - i) (by omega) (m - 1) (by omega)
      rw [Nat.sub_add_cancel m1, hlen, Nat.add_sub_cancel, Nat.sub_sub_self hi.le] at this
      refine this.trans (Nat.add_le_add (hle m m1 m2) (le_of_eq ?_))
      have e : ∀ g : ℕ → ℕ, ((List.range (n - 1)).map g).sum = ∑ t ∈ range (n - 1), g t := fun g => rfl
      rw [e]
      refine Finset.sum_congr rfl (fun t _ => ?_)
      rw [← poleCount_eq hC t, card_filter_getElem (fun b : IVec => n - poleOrder n d b ≤ t)])
  rwa [Nat.sub_sub_self hi.le] at h

/-- The digits kept for the primes from `s` on. -/
def digFrom (s n : ℕ) (a : DefaultArgs) (m : ℕ) : ℕ :=
  if 0 < a.N.getD (m - 1) 0 then a.precision.toNat - lostFrom s n m (a.N.getD (m - 1) 0).toNat else n - m

/-- What is needed of a row of the table. -/
def rowDigits (s n d : ℕ) (a : DefaultArgs) : Bool :=
  digitsOK n d (digFrom s n a) a.charpolyPrec && digitsOK n d (fun m => max (a.N.getD (m - 1) 0).toNat (n - m)) a.charpolyPrec &&
  decide (((n - 1 : ℕ) : ℤ) ≤ a.precision)

macro "row_digits" : tactic => `(tactic| first
  | exact ⟨43, by decide, by omega, by decide +kernel⟩ | exact ⟨29, by decide, by omega, by decide +kernel⟩
  | exact ⟨23, by decide, by omega, by decide +kernel⟩ | exact ⟨17, by decide, by omega, by decide +kernel⟩
  | exact ⟨13, by decide, by omega, by decide +kernel⟩ | exact ⟨11, by decide, by omega, by decide +kernel⟩
  | exact ⟨7, by decide, by omega, by decide +kernel⟩ | exact ⟨5, by decide, by omega, by decide +kernel⟩
  | exact ⟨3, by decide, by omega, by decide +kernel⟩)

theorem row_of_args {p : ℕ} (hp : 3 ≤ p) {n d : ℕ} {a : DefaultArgs} (ha : defaultArgs p n d = .ok a) :
    ∃ s, 1 ≤ s ∧ s ≤ p ∧ rowDigits s n d a = true := by
  have hmem := defaultPairs_mem ha
  simp only [defaultPairs, List.mem_cons, Prod.mk.injEq, List.not_mem_nil, or_false] at hmem
  norm_cast at hmem
  obtain ⟨rfl, rfl⟩ | ⟨rfl, rfl⟩ | ⟨rfl, rfl⟩ | ⟨rfl, rfl⟩ | ⟨rfl, rfl⟩ | ⟨rfl, rfl⟩ | ⟨rfl, rfl⟩ | ⟨rfl, rfl⟩ |
    ⟨rfl, rfl⟩ | ⟨rfl, rfl⟩ := hmem
  · replace ha : defaultArgs p 2 3 = .ok a := ha
    rw [da_2_3] at ha
    split_ifs at ha <;> cases ha <;> row_digits
  · replace ha : defaultArgs p 2 4 = .ok a := ha
    rw [da_2_4] at ha
    split_ifs at ha <;> cases ha <;> row_digits
  · replace ha : defaultArgs p 2 5 = .ok a := ha
    rw [da_2_5] at ha
    split_ifs at ha <;> cases ha <;> row_digits
  · replace ha : defaultArgs p 2 6 = .ok a := ha
    rw [da_2_6] at ha
    split_ifs at ha <;> cases ha <;> row_digits
  · replace ha : defaultArgs p 2 7 = .ok a := ha
    rw [da_2_7] at ha
    split_ifs at ha <;> cases ha <;> row_digits
  · replace ha : defaultArgs p 2 8 = .ok a := ha
    rw [da_2_8] at ha
    split_ifs at ha <;> cases ha <;> row_digits
  · replace ha : defaultArgs p 2 9 = .ok a := ha
    rw [da_2_9] at ha
    split_ifs at ha <;> cases ha <;> row_digits
  · replace ha : defaultArgs p 3 4 = .ok a := ha
    rw [da_3_4] at ha
    split_ifs at ha <;> cases ha <;> row_digits
  · replace ha : defaultArgs p 3 5 = .ok a := ha
    rw [da_3_5] at ha
    split_ifs at ha <;> cases ha <;> row_digits
  · replace ha : defaultArgs p 3 6 = .ok a := ha
    rw [da_3_6] at ha
    split_ifs at ha <;> cases ha <;> row_digits

/-! ### The digits kept -/

theorem default_le_precision {p n d : ℤ} {a : DefaultArgs} (h : defaultArgs p n d = .ok a) (i : ℕ) : a.N.getD i 0 ≤ a.precision := by
  have key : (∀ x ∈ a.N, x ≤ a.precision) ∧ 0 ≤ a.precision := by
    have hmem := defaultPairs_mem h
    simp only [defaultPairs, List.mem_cons, Prod.mk.injEq, List.not_mem_nil, or_false] at hmem
    obtain ⟨rfl, rfl⟩ | ⟨rfl, rfl⟩ | ⟨rfl, rfl⟩ | ⟨rfl, rfl⟩ | ⟨rfl, rfl⟩ | ⟨rfl, rfl⟩ | ⟨rfl, rfl⟩ | ⟨rfl, rfl⟩ |
      ⟨rfl, rfl⟩ | ⟨rfl, rfl⟩ := hmem
    · rw [da_2_3] at h; split_ifs at h <;> (cases h; decide)
    · rw [da_2_4] at h; split_ifs at h <;> (cases h; decide)
    · rw [da_2_5] at h; split_ifs at h <;> (cases h; decide)
    · rw [da_2_6] at h; split_ifs at h <;> (cases h; decide)
    · rw [da_2_7] at h; split_ifs at h <;> (cases h; decide)
    · rw [da_2_8] at h; split_ifs at h <;> (cases h; decide)
    · rw [da_2_9] at h; split_ifs at h <;> (cases h; decide)
    · rw [da_3_4] at h; split_ifs at h <;> (cases h; decide)
    · rw [da_3_5] at h; split_ifs at h <;> (cases h; decide)
    · rw [da_3_6] at h; split_ifs at h <;> (cases h; decide)
  rcases Nat.lt_or_ge i a.N.length with hi | hi
  · rw [getD_getElem _ _ _ hi]; exact key.1 _ (List.getElem_mem hi)
  · rw [List.getD_eq_getElem?_getD, List.getElem?_eq_none hi]; exact key.2

section

variable {p : ℕ} [hprime : Fact p.Prime]

/-- **C77 (digits kept).**  Whenever `zeta_function` accepts a requested precision `abs > 0`, the columns it computes, with `N` terms,
keep at least `N` digits, and `abs <= N`; this is more than the `N + m - n` of the relative precisions. -/
theorem C77_kept (n : ℕ) (d abs : ℤ) (increase : Bool) (z : ZetaPrec) (habs : 0 < abs) (hz : choosePrec p n d abs increase = .ok z)
    (m : ℕ) (hm : 1 ≤ m) (hmn : m ≤ n) (Nm : ℤ) (hN : z.N[m - 1]? = some Nm) (hpos : 0 < Nm) :
    abs ≤ Nm ∧ Nm.toNat ≤ z.precision.toNat - digitsLost p n m Nm.toNat := by
  cases ha : defaultArgs p n d with
  | error e => rw [choosePrec, ha] at hz; cases hz
  | ok a =>
    rcases C40_precision p hprime.out n d abs increase a ha habs with ⟨z', h1, h2⟩ | ⟨h1, -⟩
    · obtain rfl := Except.ok.inj (h1.symm.trans hz)
      have hg : z'.N.getD (m - 1) 0 = Nm := by rw [List.getD_eq_getElem?_getD, hN]; rfl
      have h3 := h2.needed (m - 1) (by omega) (by rw [hg]; exact hpos)
      rw [hg, precNeeded] at h3
      have e : (p * (((m - 1 : ℕ) : ℤ) + Nm) - 1).toNat = p * (m + Nm.toNat - 1) - 1 := by
        obtain ⟨c, rfl⟩ := Int.eq_ofNat_of_zero_le hpos.le
        obtain ⟨m', rfl⟩ : ∃ m', m = m' + 1 := ⟨m - 1, by omega⟩
        rw [Int.toNat_natCast, show m' + 1 + c - 1 = m' + c by omega, Nat.add_sub_cancel]
        have : ((p : ℤ) * ((m' : ℤ) + c)) = ((p * (m' + c) : ℕ) : ℤ) := by push_cast; rfl
        rw [this]
        omega
      rw [e] at h3
      have e2 : digitsLost p n m Nm.toNat = padicValNat p (p * (m + Nm.toNat - 1) - 1).factorial - (n - 1) := rfl
      rw [e2]
      have h4 := le_max_right (0 : ℤ) ((padicValNat p (p * (m + Nm.toNat - 1) - 1).factorial : ℤ) - ((m - 1 : ℕ) : ℤ))
      have h5 := h2.terms (m - 1) (by omega)
      have h6 := h2.abs_le
      have h7 : Nm ≤ z'.precision := by
        rw [hg] at h5
        cases increase with
        | false =>
          simp only [Bool.false_eq_true, if_false] at h5
          split at h5 <;> omega
        | true =>
          simp only [if_true] at h5
          have h8 := (h2.enough (h2.lift.2 (Or.inl rfl))).1
          have h9 : a.N.getD (m - 1) 0 ≤ a.precision := default_le_precision ha _
          rw [h5]
          exact max_le (by omega) h6
      have h10 : abs ≤ Nm := by
        rw [hg] at h5
        cases increase with
        | false =>
          simp only [Bool.false_eq_true, if_false] at h5
          split at h5 <;> omega
        | true =>
          simp only [if_true] at h5
          rw [h5]; exact le_max_right _ _
      omega
    · rw [h1] at hz; cases hz

theorem approx_congr {K : ℕ} {N : List ℤ} (hC : Constructed solve q f n d D) {Φ : Matrix (Fin D.basis.length) (Fin D.basis.length) ℤ}
    {Ψ : Matrix (Fin D.basis.length) (Fin D.basis.length) ℤ_[p]} (hAp : Approximates p n d K D.basis N Φ Ψ) {dig : ℕ → ℕ}
    (hle : ∀ m, 1 ≤ m → m ≤ n → dig m ≤
      if 0 < N.getD (m - 1) 0 then K - digitsLost p n m (N.getD (m - 1) 0).toNat else n - m)
    {prec : List ℤ} (hlen : prec.length = D.basis.length + 1) (hok : digitsOK n d dig prec = true) (i : ℕ) (h1 : 1 ≤ i)
    (hi : i < D.basis.length) : (p : ℤ_[p]) ^ (prec.getD i 0).toNat ∣ (Φ.charpoly.coeff i : ℤ_[p]) - Ψ.charpoly.coeff i := by
  have h := congr_of_ok (p : ℤ_[p]) hC hle hlen hok (Φ.map (Int.castRingHom ℤ_[p])) Ψ hAp.divisible (fun i j => by
    rw [Matrix.map_apply]
    split
    · rename_i h; exact hAp.digits i j h
    · rename_i h
      rw [hAp.zero i j (by omega), map_zero, zero_sub]
      exact (dvd_neg).2 (hAp.divisible i j)) i h1 hi
  rw [Matrix.charpoly_map, Polynomial.coeff_map] at h
  exact h

/-- **C77 (default precisions).**  For every prime `p >= 3`, every `(n, d)` in the tables and every object built by the constructor: if
`Ψ` is any matrix over the `p`-adic integers whose columns of pole order `m` are divisible by `p^(n-m)`, and the matrix `Φ` agrees with
it in the digits that the working precision leaves, then for `0 < i < b` the coefficients of degree `i` of the characteristic
polynomials agree modulo `p^charpoly_prec[i]`. -/
theorem C77_default_args (hp3 : 3 ≤ p) {a : DefaultArgs} (ha : defaultArgs p n d = .ok a) (hC : Constructed solve p f n d D)
    {Φ : Matrix (Fin D.basis.length) (Fin D.basis.length) ℤ} {Ψ : Matrix (Fin D.basis.length) (Fin D.basis.length) ℤ_[p]}
    (hAp : Approximates p n d a.precision.toNat D.basis a.N Φ Ψ) (i : ℕ) (h1 : 1 ≤ i) (hi : i < D.basis.length) :
    (p : ℤ_[p]) ^ (a.charpolyPrec.getD i 0).toNat ∣ (Φ.charpoly.coeff i : ℤ_[p]) - Ψ.charpoly.coeff i := by
  obtain ⟨s, hs1, hsp, hrow⟩ := row_of_args hp3 ha
  simp only [rowDigits, Bool.and_eq_true, decide_eq_true_eq] at hrow
  refine approx_congr hC hAp (fun m _ _ => ?_) (C40_basis_assertion hprime.out hC ha).symm hrow.1.1 i h1 hi
  rw [digFrom]
  split
  · exact Nat.sub_le_sub_left (digitsLost_le hs1 hsp n m _) _
  · exact le_rfl

theorem kept_small {n m N : ℕ} (hm : 1 ≤ m) (hN : 0 < N) (hp : m + N - 2 < p) :
    digitsLost p n m N ≤ (m + N - 2) - (n - 1) := by
  have h := digitsLost_le hprime.out.pos le_rfl n m N
  have hl : leg p (m + N - 2) = 0 := by
    rw [leg, List.sum_eq_zero]
    intro x hx
    obtain ⟨i, -, rfl⟩ := List.mem_map.1 hx
    exact Nat.div_eq_of_lt (lt_of_lt_of_le hp (Nat.le_self_pow (by omega) p))
  rw [lostFrom, hl, if_neg (by omega), zero_add] at h
  exact h

/-- **C77 (requested precision).**  The same for the precision and the numbers of terms that `zeta_function` chooses for any requested
precision: when it calls `charpoly_frob`, the characteristic polynomial is known to the precisions in the table; and when a precision `abs > 0` was
requested, the whole matrix and all coefficients of the characteristic polynomial are correct modulo `p^abs`. -/
theorem C77_zeta (hp3 : 3 ≤ p) {a : DefaultArgs} (ha : defaultArgs p n d = .ok a) {abs : ℤ} {increase : Bool} {z : ZetaPrec}
    (hz : choosePrec p n d abs increase = .ok z) (hC : Constructed solve p f n d D)
    {Φ : Matrix (Fin D.basis.length) (Fin D.basis.length) ℤ} {Ψ : Matrix (Fin D.basis.length) (Fin D.basis.length) ℤ_[p]}
    (hAp : Approximates p n d z.precision.toNat D.basis z.N Φ Ψ) :
    (z.lift = true → ∀ i, 1 ≤ i → i < D.basis.length →
      (p : ℤ_[p]) ^ (a.charpolyPrec.getD i 0).toNat ∣ (Φ.charpoly.coeff i : ℤ_[p]) - Ψ.charpoly.coeff i) ∧
    (0 < abs → (∀ i j, (p : ℤ_[p]) ^ abs.toNat ∣ (Φ i j : ℤ_[p]) - Ψ i j) ∧
      ∀ i, (p : ℤ_[p]) ^ abs.toNat ∣ (Φ.charpoly.coeff i : ℤ_[p]) - Ψ.charpoly.coeff i) := by
  cases ha' : choosePrec p n d abs increase with
  | error e => rw [ha'] at hz; cases hz
  | ok z' =>
  obtain rfl := Except.ok.inj (ha'.symm.trans hz)
  obtain ⟨s, hs1, hsp, hrow⟩ := row_of_args hp3 ha
  simp only [rowDigits, Bool.and_eq_true, decide_eq_true_eq] at hrow
  by_cases habs : 0 < abs
  swap
  · rw [C40_precision_default p n d abs increase (by omega), ha] at hz
    obtain rfl := Except.ok.inj hz
    exact ⟨fun _ => C77_default_args hp3 ha hC hAp, fun h => absurd h habs⟩
  rcases C40_precision p hprime.out n d abs increase a ha habs with ⟨z, e1, hS⟩ | ⟨e1, -⟩
  swap
  · rw [e1] at hz; cases hz
  obtain rfl := Except.ok.inj (e1.symm.trans hz)
  have hget : ∀ m, 1 ≤ m → m ≤ n → z.N[m - 1]? = some (z.N.getD (m - 1) 0) := fun m m1 m2 => by
    have : m - 1 < z.N.length := by have := hS.len; omega
    rw [getD_getElem _ _ _ this, List.getElem?_eq_getElem this]
  have hkept : ∀ m, 1 ≤ m → m ≤ n → 0 < z.N.getD (m - 1) 0 → abs ≤ z.N.getD (m - 1) 0 ∧
      (z.N.getD (m - 1) 0).toNat ≤ z.precision.toNat - digitsLost p n m (z.N.getD (m - 1) 0).toNat := fun m m1 m2 h =>
    C77_kept n d abs increase z habs hz m m1 m2 _ (hget m m1 m2) h
  refine ⟨fun hl => ?_, fun _ => ?_⟩
  · obtain ⟨l1, l2⟩ := hS.enough hl
    refine approx_congr hC hAp (fun m m1 m2 => ?_) (C40_basis_assertion hprime.out hC ha).symm hrow.1.2
    have l3 := l2 (m - 1) (by omega)
    split
    · rename_i hpos
      obtain ⟨-, k2⟩ := hkept m m1 m2 hpos
      refine max_le (by omega) ?_
      have hsm := hS.small (m - 1) (by omega)
      have hv := kept_small (p := p) (n := n) (m := m) (N := (z.N.getD (m - 1) 0).toNat) m1 (by omega) (by omega)
      omega
    · exact max_le (by omega) le_rfl
  · have key : ∀ i j, (p : ℤ_[p]) ^ abs.toNat ∣ (Φ i j : ℤ_[p]) - Ψ i j := fun i j => by
      obtain ⟨m1, m2⟩ := basis_pole_order hC j
      by_cases hpos : 0 < z.N.getD (poleOrder n d D.basis[j] - 1) 0
      · obtain ⟨k1, k2⟩ := hkept _ m1 m2 hpos
        exact (pow_dvd_pow _ (by omega)).trans (hAp.digits i j hpos)
      · have ht := hS.terms (poleOrder n d D.basis[j] - 1) (by omega)
        rw [hAp.zero i j (by omega), Int.cast_zero, zero_sub]
        refine (dvd_neg).2 ((pow_dvd_pow _ ?_).trans (hAp.divisible i j))
        cases increase with
        | true => simp only [if_true] at ht; have := le_max_right (a.N.getD (poleOrder n d D.basis[j] - 1) 0) abs; omega
        | false =>
          simp only [Bool.false_eq_true, if_false] at ht
          split at ht <;> omega
    refine ⟨key, fun i => ?_⟩
    have hq : (Φ.map (Int.castRingHom ℤ_[p])).map (Ideal.Quotient.mk (Ideal.span {(p : ℤ_[p]) ^ abs.toNat})) =
        Ψ.map (Ideal.Quotient.mk (Ideal.span {(p : ℤ_[p]) ^ abs.toNat})) := by
      ext i j
      exact Ideal.Quotient.eq.2 (Ideal.mem_span_singleton.2 (key i j))
    have := congrArg (fun M => M.charpoly.coeff i) hq
    simp only [Matrix.charpoly_map, Polynomial.coeff_map] at this
    exact Ideal.mem_span_singleton.1 (Ideal.Quotient.eq.1 this)

/-- **C77 (the polynomial returned).**  If the matrix `Ψ` above has the characteristic polynomial `P`, an integer polynomial with the
properties of C14, then `zeta_function` returns the coefficients of `P` when it calls `charpoly_frob`, and those of `P` modulo `p^abs` when
it does not. -/
theorem C77_returned (hp3 : 3 ≤ p) {a : DefaultArgs} (ha : defaultArgs p n d = .ok a) {abs : ℤ} {increase : Bool} {z : ZetaPrec}
    (hz : choosePrec p n d abs increase = .ok z) (hC : Constructed solve p f n d D)
    {Φ : Matrix (Fin D.basis.length) (Fin D.basis.length) ℤ} {Ψ : Matrix (Fin D.basis.length) (Fin D.basis.length) ℤ_[p]}
    (hAp : Approximates p n d z.precision.toNat D.basis z.N Φ Ψ) (P : Polynomial ℤ)
    (hP : Ψ.charpoly = P.map (Int.castRingHom ℤ_[p])) :
    (z.lift = true → P.Monic → P.natDegree = D.basis.length → WeilRoots P p (n - 1) → ∀ ε : ℤ, (ε = 1 ∨ ε = -1) →
      FunctionalEquation P D.basis.length p (n - 1) ε →
      (ε = 1 ∨ (Even (n - 1) ∧ ∃ j, 1 ≤ j ∧ 2 * j ≤ D.basis.length ∧
        ¬ (p : ℤ) ^ (min (a.charpolyPrec.getD j 0)
          (a.charpolyPrec.getD (D.basis.length - j) 0 + halfWeight D.basis.length (n - 1) j)).toNat ∣ P.coeff j)) →
      charpolyFrob (CMat.ofMatrix Φ) z.charpolyPrec p (n - 1 : ℕ) = .ok ((List.range (D.basis.length + 1)).map P.coeff)) ∧
    (z.lift = false → ∀ i, Φ.charpoly.coeff i % (p : ℤ) ^ abs.toNat = P.coeff i % (p : ℤ) ^ abs.toNat) := by
  obtain ⟨h1, h2⟩ := C77_zeta hp3 ha hz hC hAp
  have hn : 2 ≤ n := (pairs_bounds (defaultPairs_mem ha)).1
  have hcongr : ∀ (i k : ℕ), (p : ℤ_[p]) ^ k ∣ (Φ.charpoly.coeff i : ℤ_[p]) - Ψ.charpoly.coeff i →
      Φ.charpoly.coeff i ≡ P.coeff i [ZMOD (p : ℤ) ^ k] := fun i k h => by
    rw [hP, Polynomial.coeff_map, eq_intCast, ← Int.cast_sub, PadicInt.pow_p_dvd_int_iff] at h
    exact (Int.modEq_iff_dvd.2 (by exact_mod_cast h)).symm
  have hchar : z.charpolyPrec = a.charpolyPrec := by
    by_cases habs : 0 < abs
    · rcases C40_precision p hprime.out n d abs increase a ha habs with ⟨z', e1, hS⟩ | ⟨e1, -⟩
      · obtain rfl := Except.ok.inj (e1.symm.trans hz)
        exact hS.charpoly
      · rw [e1] at hz; cases hz
    · rw [C40_precision_default p n d abs increase (by omega), ha] at hz
      obtain rfl := Except.ok.inj hz
      rfl
  constructor
  · intro hl hmon hdeg hW ε hε hfe hsign
    have hodd : Odd p := hprime.out.odd_of_ne_two (by omega)
    have e : ((n : ℤ) - 1).toNat = n - 1 := by omega
    have e' : ((n : ℤ) + 1).toNat = n + 1 := by omega
    have := C14_default_precisions p hp3 hodd n d a ha (b := D.basis.length) (by rw [e']; exact C45_rank hC) Φ P hmon hdeg
      (by rw [e]; exact hW) ε hε (by rw [e]; exact hfe) (fun i i1 i2 => hcongr i _ (h1 hl i i1 i2)) (by rw [e]; exact hsign)
    rw [e] at this
    rw [hchar]
    exact this
  · intro hl i
    have habs : 0 < abs := by
      by_contra habs
      rw [C40_precision_default p n d abs increase (by omega), ha] at hz
      obtain rfl := Except.ok.inj hz
      cases hl
    exact hcongr i _ ((h2 habs).2 i)

end

/-! ### The curve `2x^3 + y^3 + z^3` modulo 5 -/

/-- A matrix with the characteristic polynomial `X^2 + 5`. -/
noncomputable def exPsi (b : ℕ) [Fact (Nat.Prime 5)] : Matrix (Fin b) (Fin b) ℤ_[5] :=
  Matrix.of (fun i j => if i.1 = 0 ∧ j.1 = 1 then 1 else if i.1 = 1 ∧ j.1 = 0 then -5 else 0)

/-- The same with three digits in the first column and two in the second, and a digit beyond those two. -/
def exPhi (b : ℕ) : Matrix (Fin b) (Fin b) ℤ :=
  Matrix.of (fun i j => if i.1 = 0 ∧ j.1 = 1 then 26 else if i.1 = 1 ∧ j.1 = 0 then 120 else 0)

theorem exLost [Fact (Nat.Prime 5)] : digitsLost 5 2 2 2 = 1 := by
  have : frobFact 5 2 2 = 5 ^ 2 * 3487131648 := by decide
  rw [digitsLost, this, padicValNat.mul (by norm_num) (by norm_num), padicValNat.prime_pow,
    padicValNat.eq_zero_of_not_dvd (by norm_num)]

theorem exApprox [Fact (Nat.Prime 5)] {B : List IVec} (hB : B = [[0, 0, 0], [1, 1, 1]]) :
    Approximates 5 2 3 3 B [2, 2] (exPhi B.length) (exPsi B.length) ∧
    (exPsi B.length).charpoly = (Polynomial.X ^ 2 + Polynomial.C 5 : Polynomial ℤ).map (Int.castRingHom ℤ_[5]) := by
  subst hB
  have h0 : poleOrder 2 3 [0, 0, 0] = 1 := by decide
  have h1 : poleOrder 2 3 [1, 1, 1] = 2 := by decide
  have e00 : exPsi 2 0 0 = 0 := by simp [exPsi]
  have e01 : exPsi 2 0 1 = 1 := by simp [exPsi]
  have e10 : exPsi 2 1 0 = -5 := by simp [exPsi]
  have e11 : exPsi 2 1 1 = 0 := by simp [exPsi]
  have f00 : exPhi 2 0 0 = 0 := rfl
  have f01 : exPhi 2 0 1 = 26 := rfl
  have f10 : exPhi 2 1 0 = 120 := rfl
  have f11 : exPhi 2 1 1 = 0 := rfl
  refine ⟨⟨fun i j => ?_, fun i j _ => ?_, fun i j h => ?_⟩, ?_⟩
  · have key : ∀ i j : Fin 2, (((5 : ℕ) : ℤ_[5]) ^ (2 - poleOrder 2 3 ([[0, 0, 0], [1, 1, 1]] : List IVec)[j])) ∣ exPsi 2 i j := by
      simp only [Fin.forall_fin_two]
      refine ⟨⟨?_, ?_⟩, ?_, ?_⟩
      · rw [e00]; exact dvd_zero _
      · show _ ^ (2 - poleOrder 2 3 [1, 1, 1]) ∣ _
        rw [h1, Nat.sub_self, pow_zero]; exact one_dvd _
      · show _ ^ (2 - poleOrder 2 3 [0, 0, 0]) ∣ _
        rw [h0, e10]; exact ⟨-1, by norm_num⟩
      · rw [e11]; exact dvd_zero _
    exact key i j
  · have key : ∀ i j : Fin 2, (((5 : ℕ) : ℤ_[5]) ^ (3 - digitsLost 5 2 (poleOrder 2 3 ([[0, 0, 0], [1, 1, 1]] : List IVec)[j])
        (([2, 2] : List ℤ).getD (poleOrder 2 3 ([[0, 0, 0], [1, 1, 1]] : List IVec)[j] - 1) 0).toNat)) ∣
        (exPhi 2 i j : ℤ_[5]) - exPsi 2 i j := by
      have g0 : 3 - digitsLost 5 2 (poleOrder 2 3 [0, 0, 0]) (([2, 2] : List ℤ).getD (poleOrder 2 3 [0, 0, 0] - 1) 0).toNat ≤ 3 :=
        Nat.sub_le _ _
      have g1 : 3 - digitsLost 5 2 (poleOrder 2 3 [1, 1, 1]) (([2, 2] : List ℤ).getD (poleOrder 2 3 [1, 1, 1] - 1) 0).toNat ≤ 2 := by
        rw [h1]
        show 3 - digitsLost 5 2 2 2 ≤ 2
        rw [exLost]
      simp only [Fin.forall_fin_two]
      refine ⟨⟨?_, ?_⟩, ?_, ?_⟩
      · rw [e00, f00]; simp
      · refine (pow_dvd_pow _ g1).trans ?_
        rw [e01, f01]; exact ⟨1, by norm_num⟩
      · refine (pow_dvd_pow _ g0).trans ?_
        rw [e10, f10]; exact ⟨1, by norm_num⟩
      · rw [e11, f11]; simp
    exact key i j
  · exfalso
    have key : ∀ j : Fin 2, ¬ (([2, 2] : List ℤ).getD (poleOrder 2 3 ([[0, 0, 0], [1, 1, 1]] : List IVec)[j] - 1) 0 ≤ 0) := by decide
    exact key j h
  · show (exPsi 2).charpoly = _
    rw [Matrix.charpoly_fin_two, Matrix.trace_fin_two, Matrix.det_fin_two, e00, e01, e10, e11]
    have hc : (Polynomial.C 5 : Polynomial ℤ_[5]) = 5 := rfl
    simp [hc]

/-- The curve `2x^3 + y^3 + z^3` modulo 5 with the default precision 3: for the matrices above all hypotheses hold, and the polynomial
returned is `X^2 + 5`. -/
example : ∃ D, Constructed exSolve 5 exCurve 2 3 D ∧
    charpolyFrob (CMat.ofMatrix (exPhi D.basis.length)) [2, 2, 2] 5 1 = .ok [5, 0, 1] := by
  obtain ⟨D, hC, hb⟩ := exCurve_constructed
  have : Fact (Nat.Prime 5) := ⟨by norm_num⟩
  obtain ⟨hA, hP⟩ := exApprox hb
  have hlen : D.basis.length = 2 := by rw [hb]; rfl
  have hc : ∀ i, (Polynomial.X ^ 2 + Polynomial.C 5 : Polynomial ℤ).coeff i = (if i = 2 then 1 else 0) + if i = 0 then 5 else 0 := by
    intro i
    rw [Polynomial.coeff_add, Polynomial.coeff_X_pow, Polynomial.coeff_C]
  have hdeg : (Polynomial.X ^ 2 + Polynomial.C 5 : Polynomial ℤ).natDegree = 2 := Polynomial.natDegree_X_pow_add_C
  refine ⟨D, hC, ?_⟩
  have h := (C77_returned (p := 5) (by norm_num) (n := 2) (d := 3) (a := ⟨3, [2, 2], [2, 2, 2]⟩) rfl (abs := 0) (increase := false)
    (z := ⟨3, [2, 2], [2, 2, 2], true⟩) rfl hC hA _ hP).1 rfl (Polynomial.monic_X_pow_add_C _ (by norm_num)) (by rw [hlen, hdeg])
    (by
      intro z hz
      simp only [map_add, map_pow, Polynomial.aeval_X, Polynomial.aeval_C] at hz
      have h1 : z ^ 2 = -5 := by
        have e : (algebraMap ℤ ℂ) 5 = 5 := by simp
        rw [e] at hz
        exact eq_neg_of_add_eq_zero_left hz
      rw [← norm_pow, h1]
      norm_num) 1 (Or.inl rfl) (by
      rw [hlen]
      intro i hi
      obtain rfl | rfl : i = 0 ∨ i = 1 := by omega
      · rw [hc, hc]; norm_num [halfWeight]
      · rw [hc]; norm_num [halfWeight]) (Or.inl rfl)
  have hr : (List.range (D.basis.length + 1)).map (Polynomial.X ^ 2 + Polynomial.C 5 : Polynomial ℤ).coeff = [5, 0, 1] := by
    rw [hlen, show List.range (2 + 1) = [0, 1, 2] from rfl]
    simp only [List.map_cons, List.map_nil, hc]
    rfl
  rw [hr] at h
  exact h

end Verif
