import Verif.Model.ZetaRange
import Verif.Props.ZetaI64

/-!
Property C90 for the whole of `zeta_function`, with every option.
-/

namespace Verif

open Spec

theorem i64_ok {x : Int} (h0 : 0 ≤ x) (h1 : x < 2 ^ 63) : i64 x = .ok x := by
  rw [i64, if_pos ⟨by omega, h1⟩]

/-- Two loops that agree where an invariant holds. -/
theorem forRange_eq_keep {σ : Type} {f g : ℕ → σ → Res σ} (P : ℕ → σ → Prop) : ∀ (k : ℕ) {s : σ}, P 0 s →
    (∀ i s, i < k → P i s → f i s = g i s ∧ ∀ s', g i s = .ok s' → P (i + 1) s') →
    forRange k s f = forRange k s g ∧ ∀ s', forRange k s g = .ok s' → P k s'
  | 0, s, h0, _ => ⟨rfl, fun s' h => by cases h; exact h0⟩
  | k + 1, s, h0, h => by
    obtain ⟨h1, h2⟩ := forRange_eq_keep P k h0 (fun i s hi => h i s (by omega))
    rw [forRange, forRange, h1]
    cases hg : forRange k s g with
    | error x => exact ⟨by rw [Res.bind_error, Res.bind_error], fun s' h => by cases h⟩
    | ok s1 =>
      rw [Res.bind_ok, Res.bind_ok]
      exact h k s1 (by omega) (h2 s1 hg)

theorem raisePrec64_eq {p i : ℕ} {r N prec M : ℤ} (hp : 1 ≤ p) (hi : i ≤ 3) (hN : 0 < N) (hM : N ≤ M) (hb : p * ((3 + M) * 9) < 2 ^ 63) :
    raisePrec64 p i r N prec = raisePrec p i r N prec := by
  have hp' : (1 : ℤ) ≤ p := by exact_mod_cast hp
  have h1 : (p : ℤ) * (i + N) ≤ p * ((3 + M) * 9) := mul_le_mul_of_nonneg_left (by omega) (by omega)
  have h2 : (i : ℤ) + N ≤ p * (i + N) := le_mul_of_one_le_left (by omega) hp'
  rw [raisePrec64, i64_ok (by omega) (by omega), Res.bind_ok, i64_ok (by omega) (by omega), Res.bind_ok, i64_ok (by omega) (by omega),
    Res.bind_ok, raisePrec]

/-- `r` is still the one of the start from index `i` on, and no number of terms is above `M`. -/
def PrecBound (n M : ℤ) (i : ℕ) (s : PrecSt) : Prop :=
  (∀ j x, i ≤ j → s.r[j]? = some x → x + n - (j + 1) ≤ M) ∧ ∀ x ∈ s.N, x ≤ M

theorem PrecBound.step {n M : ℤ} {i : ℕ} {s : PrecSt} (h : PrecBound n M i s) {x y prec : ℤ} {lift : Bool} (hy : y ≤ M)
    {r N : List ℤ} (hr : aset s.r i x = .ok r) (hN : aset s.N i y = .ok N) : PrecBound n M (i + 1) ⟨r, N, prec, lift⟩ := by
  rw [aset] at hr hN
  split at hr
  · split at hN
    · cases hr
      cases hN
      refine ⟨fun j z hj hz => h.1 j z (by omega) ?_, fun z hz => ?_⟩
      · rw [List.getElem?_set_ne (by omega)] at hz
        exact hz
      · rcases List.mem_or_eq_of_mem_set hz with h1 | h1
        · exact h.2 z h1
        · rw [h1]; exact hy
    · cases hN
  · cases hr

theorem incrStep64_eq {p i : ℕ} {n abs M : ℤ} {s : PrecSt} (hp : 1 ≤ p) (hi : i ≤ 3) (habs : 0 < abs) (hM : abs ≤ M)
    (hb : p * ((3 + M) * 9) < 2 ^ 63) (h : PrecBound n M i s) :
    incrStep64 p n abs i s = incrStep p n abs i s ∧ ∀ s', incrStep p n abs i s = .ok s' → PrecBound n M (i + 1) s' := by
  rw [incrStep64, incrStep]
  cases hr : aget s.r i with
  | error x => exact ⟨by rw [Res.bind_error, Res.bind_error], fun s' h => by cases h⟩
  | ok ri =>
    rw [Res.bind_ok, Res.bind_ok]
    have h1 := h.1 i ri le_rfl (aget_some hr)
    have hNi : max ri (abs - (n - 1) + i) + n - (i + 1) ≤ M := by omega
    have hNi0 : 0 < max ri (abs - (n - 1) + i) + n - (i + 1) := by omega
    refine ⟨?_, fun s' hs => ?_⟩
    · simp only [raisePrec64_eq hp hi hNi0 hNi hb]
    · obtain ⟨_, -, hs⟩ := Res.bind_eq_ok.1 hs
      obtain ⟨_, -, hs⟩ := Res.bind_eq_ok.1 hs
      obtain ⟨_, -, hs⟩ := Res.bind_eq_ok.1 hs
      obtain ⟨r, h2, hs⟩ := Res.bind_eq_ok.1 hs
      obtain ⟨N, h3, hs⟩ := Res.bind_eq_ok.1 hs
      cases hs
      exact h.step hNi h2 h3

theorem absStep64_eq {p i : ℕ} {n abs M : ℤ} {s : PrecSt} (hp : 1 ≤ p) (hi : i ≤ 3) (habs : 0 < abs) (hM : abs ≤ M)
    (hb : p * ((3 + M) * 9) < 2 ^ 63) (h : PrecBound n M i s) :
    absStep64 p n abs i s = absStep p n abs i s ∧ ∀ s', absStep p n abs i s = .ok s' → PrecBound n M (i + 1) s' := by
  rw [absStep64, absStep]
  cases hr : aget s.r i with
  | error x => exact ⟨by rw [Res.bind_error, Res.bind_error], fun s' h => by cases h⟩
  | ok ri =>
    rw [Res.bind_ok, Res.bind_ok]
    by_cases h0 : abs - (n - 1) + i ≤ 0
    · rw [if_pos h0, if_pos h0]
      refine ⟨rfl, fun s' hs => ?_⟩
      obtain ⟨r, h2, hs⟩ := Res.bind_eq_ok.1 hs
      obtain ⟨N, h3, hs⟩ := Res.bind_eq_ok.1 hs
      cases hs
      exact h.step (by omega) h2 h3
    · rw [if_neg h0, if_neg h0]
      have hNi : abs - (n - 1) + i + n - (i + 1) ≤ M := by omega
      have hNi0 : 0 < abs - (n - 1) + i + n - (i + 1) := by omega
      refine ⟨?_, fun s' hs => ?_⟩
      · simp only [raisePrec64_eq hp hi hNi0 hNi hb]
      · obtain ⟨_, -, hs⟩ := Res.bind_eq_ok.1 hs
        obtain ⟨r, h2, hs⟩ := Res.bind_eq_ok.1 hs
        obtain ⟨N, h3, hs⟩ := Res.bind_eq_ok.1 hs
        cases hs
        exact h.step hNi h2 h3

theorem mapM_getElem {α β : Type} {g : α → Res β} : ∀ {l : List α} {r : List β}, l.mapM g = .ok r → ∀ {j : ℕ} {y : β}, r[j]? = some y →
    ∃ a, l[j]? = some a ∧ g a = .ok y
  | [], r, h, j, y, hy => by
    rw [List.mapM_nil] at h
    cases h
    simp at hy
  | a :: l, r, h, j, y, hy => by
    rw [List.mapM_cons] at h
    obtain ⟨b, h1, h⟩ := Res.bind_eq_ok.1 h
    obtain ⟨bs, h2, h⟩ := Res.bind_eq_ok.1 h
    cases h
    cases j with
    | zero =>
      simp only [List.getElem?_cons_zero, Option.some.injEq] at hy ⊢
      exact ⟨a, rfl, by rw [h1, hy]⟩
    | succ j => exact mapM_getElem h2 hy

theorem choosePrec64_eq {p n d : ℕ} (hp : 1 ≤ p) (abs : ℤ) (increase : Bool) (hb : p * ((3 + max 40 abs) * 9) < 2 ^ 63) :
    choosePrec64 p n d abs increase = choosePrec p n d abs increase ∧
    ∀ z, choosePrec p n d abs increase = .ok z → ∀ k ∈ z.N, k ≤ max 40 abs := by
  rw [choosePrec64, choosePrec]
  cases ha : defaultArgs p n d with
  | error x => exact ⟨by rw [Res.bind_error, Res.bind_error], fun z h => by cases h⟩
  | ok a =>
    have hN := defaultArgs_small p n d a ha
    have hn : n ≤ 3 := by
      have hmem : ((n : ℤ), (d : ℤ)) ∈ defaultPairs := by
        by_contra hn
        rw [(C12_domain p n d).2 hn] at ha
        cases ha
      simp only [defaultPairs, List.mem_cons, Prod.mk.injEq, List.not_mem_nil, or_false] at hmem
      omega
    rw [Res.bind_ok, Res.bind_ok]
    by_cases h0 : 0 < abs
    · rw [if_pos h0, if_pos h0]
      cases hr : (List.range (n : ℤ).toNat).mapM (fun i => (do
          let Ni ← aget a.N i
          .ok (Ni + ((i : Int) + 1) - n) : Res ℤ)) with
      | error x => exact ⟨by rw [Res.bind_error, Res.bind_error], fun z h => by cases h⟩
      | ok r =>
        rw [Res.bind_ok, Res.bind_ok]
        have hstart : ∀ prec, PrecBound n (max 40 abs) 0 ⟨r, a.N, prec, true⟩ := fun prec => by
          refine ⟨fun j x _ hx => ?_, fun x hx => le_trans (hN x hx) (le_max_left _ _)⟩
          obtain ⟨i, hi, hg⟩ := mapM_getElem hr hx
          have hij : i = j := by
            obtain ⟨hj, hi⟩ := List.getElem?_eq_some_iff.1 hi
            rw [List.getElem_range] at hi
            exact hi.symm
          subst hij
          obtain ⟨Ni, h1, h2⟩ := Res.bind_eq_ok.1 hg
          cases h2
          have := hN Ni (List.mem_of_getElem? (aget_some h1))
          omega
        have hM : abs ≤ max 40 abs := le_max_right _ _
        cases increase with
        | true =>
          have hl := forRange_eq_keep (f := incrStep64 p n abs) (g := incrStep p n abs) (PrecBound n (max 40 abs)) (n : ℤ).toNat
            (hstart a.precision) (fun i s hi hs => incrStep64_eq hp (by omega) h0 hM hb hs)
          simp only [if_true, hl.1]
          refine ⟨trivial, fun z hz => ?_⟩
          obtain ⟨s, hs, hz⟩ := Res.bind_eq_ok.1 hz
          obtain ⟨_, -, hz⟩ := Res.bind_eq_ok.1 hz
          obtain ⟨m, -, hz⟩ := Res.bind_eq_ok.1 hz
          split at hz
          · cases hz
          · cases hz
            exact (hl.2 s hs).2
        | false =>
          have hl := forRange_eq_keep (f := absStep64 p n abs) (g := absStep p n abs) (PrecBound n (max 40 abs)) (n : ℤ).toNat
            (hstart 1) (fun i s hi hs => absStep64_eq hp (by omega) h0 hM hb hs)
          simp only [Bool.false_eq_true, if_false, hl.1]
          refine ⟨trivial, fun z hz => ?_⟩
          obtain ⟨s, hs, hz⟩ := Res.bind_eq_ok.1 hz
          obtain ⟨_, -, hz⟩ := Res.bind_eq_ok.1 hz
          obtain ⟨m, -, hz⟩ := Res.bind_eq_ok.1 hz
          split at hz
          · cases hz
          · cases hz
            exact (hl.2 s hs).2
    · rw [if_neg h0, if_neg h0]
      refine ⟨rfl, fun z hz => ?_⟩
      cases hz
      exact fun k hk => le_trans (hN k hk) (le_max_left _ _)

section

variable {p n d : ℕ} [hprime : Fact p.Prime]

theorem chooseModel64_eq (hp : p < 2 ^ 56) (la : RankDet (ZMod p)) (rnd : Rnd (ZMod p)) (t q : ℕ) (better : Bool)
    (fp : MonMap (ZMod p)) (fq : MonMap (ZMod q)) :
    chooseModel64 la rnd t q better fp fq = chooseModel la rnd t q better fp fq := by
  rw [chooseModel64, chooseModel, i64_ok (x := (p : ℤ) * 100) (by omega) (by omega), Res.bind_ok, i64_ok (by omega) (by omega), Res.bind_ok]
  rfl

/-- **C90 for the whole of `zeta_function`.**  For every homogeneous integer polynomial, every prime and all options such that
`9 p (3 + max(40, abs_precision)) < 2^63`: `zeta_function` returns a value if and only if it returns it with every operation on exponent
vectors and every product of machine integers in `int64_t`. -/
theorem C90_zeta_function (la : RankDet (ZMod p)) (hla : RankDetOK la) (rnd : Rnd (ZMod p)) (t : ℕ) {la' : LinAlg (ZMod p)}
    (hla' : LinAlgOK la') (flint pre : Bool) (order : ℕ → List ℕ) (f : MonMap Int)
    (hf : WFPoly (n + 1) f) (hne : f ≠ []) (hdeg : ∀ e ∈ f, deg e.1 = d) (hd : d < 2 ^ 63) (abs : ℤ) (increase better : Bool)
    (hb : p * ((3 + max 40 abs) * 9) < 2 ^ 63) (x : Option (List ℤ × CMat ℤ)) :
    zetaMain64 p la rnd t (frobRoutine64 p la' flint pre order) f abs increase better = .ok x ↔
    zetaMain p la rnd t (frobRoutine p la' flint pre order) f abs increase better = .ok x := by
  have hp := hprime.out.one_lt.le
  have hp' : p < 2 ^ 56 := by
    have h1 : (p : ℤ) * ((3 + 40) * 9) ≤ p * ((3 + max 40 abs) * 9) := mul_le_mul_of_nonneg_left (by omega) (by omega)
    omega
  rw [← C90_zeta la hla rnd t hla' flint pre order f hf hne hdeg abs increase better (fun z hz k hk => ?_) x]
  · have : zetaMain64 p la rnd t (frobRoutine64 p la' flint pre order) f abs increase better =
        zetaMain p la rnd t (frobRoutine64 p la' flint pre order) f abs increase better := by
      cases f with
      | nil => rfl
      | cons e f =>
        obtain ⟨k, c⟩ := e
        have hk := hf.1 (k, c) (by simp)
        have hk1 : deg k = d := hdeg (k, c) (by simp)
        have hsum : sumVec k = d := by rw [sumVec_eq_sum]; exact hk1
        have hs : sumVec64 k = .ok (sumVec k) := by
          rw [Small.sum64 ⟨hk.2, by show k.sum < 2 ^ 63; rw [deg] at hk1; omega⟩, sumVec_eq_sum]
        have hlen : (k.length : ℤ) - 1 = n := by have := hk.1; simp only at this; omega
        rw [zetaMain64, zetaMain, hs, Res.bind_ok]
        simp only [hsum, hlen, (choosePrec64_eq hp abs increase hb).1, chooseModel64_eq hp']
        rfl
    rw [this]
  · have hk := (choosePrec64_eq (n := n) (d := d) hp abs increase hb).2 z hz k hk
    rw [choosePrec] at hz
    obtain ⟨a, ha, -⟩ := Res.bind_eq_ok.1 hz
    have hmem : ((n : ℤ), (d : ℤ)) ∈ defaultPairs := by
      by_contra hn
      rw [(C12_domain p n d).2 hn] at ha
      cases ha
    have hnd : n ≤ 3 ∧ d ≤ 9 := by
      simp only [defaultPairs, List.mem_cons, Prod.mk.injEq, List.not_mem_nil, or_false] at hmem
      omega
    have h1 : (n + k.toNat - 1) * d ≤ (3 + (max 40 abs).toNat) * 9 := Nat.mul_le_mul (by omega) hnd.2
    have h2 : p * ((n + k.toNat - 1) * d) ≤ p * ((3 + (max 40 abs).toNat) * 9) := Nat.mul_le_mul_left _ h1
    refine lt_of_le_of_lt h2 ?_
    have h3 : ((max 40 abs).toNat : ℤ) = max 40 abs := Int.toNat_of_nonneg (by omega)
    zify
    rw [h3]
    exact hb

end

local instance zetaRangePrime : Fact (Nat.Prime 17) := ⟨by norm_num⟩

/-- A run in 64 bits that returns: the cubic of C65. -/
example : ∃ (la : RankDet (ZMod 17)) (la' : LinAlg (ZMod 17)) (a : ℤ) (F : CMat ℤ), -8 ≤ a ∧ a ≤ 8 ∧
    zetaMain64 17 la ⟨fun _ => 0, fun _ => 0⟩ 1 (frobRoutine64 17 la' true false List.range)
      [([0, 0, 3], 1), ([0, 1, 2], 1), ([0, 3, 0], 1), ([3, 0, 0], 1)] 0 false true = .ok (some ([17, -a, 1], F)) := by
  obtain ⟨la, hla⟩ := exists_rankDet (ZMod 17)
  obtain ⟨la', hla'⟩ := exists_linAlg (ZMod 17)
  obtain ⟨-, -, Φ, hΦ, a, h1, h2, h3, h4⟩ := C65_default_cubic_trace la hla ⟨fun _ => 0, fun _ => 0⟩ 1 la' hla' true false
    (order := List.range) (fun b => List.Perm.refl _) 0 le_rfl false true
  obtain ⟨f1, f2, f3⟩ := cubicInt_wf
  exact ⟨la, la', a, _, h1, h2, (C90_zeta_function (n := 2) (d := 3) la hla _ 1 hla' true false List.range _ f1 f2 f3 (by norm_num) 0
    false true (by norm_num) _).2 h4⟩

end Verif
