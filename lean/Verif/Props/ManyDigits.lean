import Verif.Props.Pipeline
import Verif.Props.Terms

/-!
Properties C32 and C65: how many terms and how many digits can be asked for.
-/

namespace Verif

open Spec MvPolynomial

/-- **C32 (the range of 64 bits).**  All coefficients `D_{j,m}` of `N` terms are in the range of `int64_t` exactly for `N <= 66` when
`n = 1`, `N <= 60` when `n = 2` and `N <= 55` when `n = 3`; in higher dimension at least for `n + 2N <= 64`. -/
theorem C32_range (N : ℤ) :
    (TermsFit 1 N ↔ N ≤ 66) ∧ (TermsFit 2 N ↔ N ≤ 60) ∧ (TermsFit 3 N ↔ N ≤ 55) ∧ ∀ n : ℕ, n + 2 * N ≤ 64 → TermsFit n N := by
  obtain ⟨a1, a2, b1, b2, c1, c2, d1, d2, d3⟩ := fitsB_table
  refine ⟨⟨fun h => ?_, fun h => ?_⟩, ⟨fun h => ?_, fun h => ?_⟩, ⟨fun h => ?_, fun h => ?_⟩, fun n h => termsFit_sum h⟩
  · by_contra hN
    exact not_termsFit_of_table le_rfl a2 (by push_cast; omega) h
  · exact termsFit_of_table (k := 66) (fun m h1 h2 => by obtain rfl : m = 1 := by omega
                                                         exact a1) (by exact_mod_cast h)
  · by_contra hN
    exact not_termsFit_of_table (by norm_num) b2 (by push_cast; omega) h
  · refine termsFit_of_table (k := 60) (fun m h1 h2 => ?_) (by exact_mod_cast h)
    obtain rfl | rfl : m = 1 ∨ m = 2 := by omega
    · exact d1
    · exact b1
  · by_contra hN
    exact not_termsFit_of_table (by norm_num) c2 (by push_cast; omega) h
  · refine termsFit_of_table (k := 55) (fun m h1 h2 => ?_) (by exact_mod_cast h)
    obtain rfl | rfl | rfl : m = 1 ∨ m = 2 ∨ m = 3 := by omega
    · exact d2
    · exact d3
    · exact c1

/-- The first coefficient of a surface that is too large: `D_{37,3}` with 56 terms. -/
example : ∃ j < 56, 2 ^ 63 ≤ (djm 3 56 j).natAbs := by
  by_contra h
  push Not at h
  have := (fitsB_iff 3 56).2 h
  rw [fitsB_table.2.2.2.2.2.1] at this
  cases this

section

variable {p : ℕ} [hprime : Fact p.Prime] {n d : ℕ}

theorem foldlM_head {σ α : Type} (step : σ → α → Res σ) {l : List α} {s r : σ} (h : l.foldlM step s = .ok r) (hl : l ≠ []) :
    ∃ a ∈ l, ∃ s', step s a = .ok s' := by
  cases l with
  | nil => exact absurd rfl hl
  | cons a l =>
    rw [List.foldlM_cons] at h
    obtain ⟨s', h1, -⟩ := Res.bind_eq_ok.1 h
    exact ⟨a, List.mem_cons_self, s', h1⟩

/-- A matrix with a column is not returned when every number of terms is 69 or more. -/
theorem frobRoutine_stops {la : LinAlg (ZMod p)} {flint pre : Bool} {order : ℕ → List ℕ} (ho : ∀ b, (order b).Perm (List.range b))
    {K : ℕ} {nd : Bool} {g : MonMap (ZMod (p ^ K))} {N : List ℤ} (hN : ∀ x ∈ N, 69 ≤ x) {F : ℕ × CMat (ZMod (p ^ K))}
    (h : frobRoutine p la flint pre order K nd g N = .ok F) : F.1 = 0 := by
  have hget : ∀ (i x : ℤ), iget N i = .ok x → 69 ≤ x := fun i x hx => by
    unfold iget at hx
    split_ifs at hx
    unfold aget at hx
    split at hx
    · rename_i y hy
      obtain rfl := Except.ok.inj hx
      exact hN _ (List.mem_of_getElem? hy)
    · cases hx
  have hne : ∀ b, b ≠ 0 → order b ≠ [] := fun b hb h0 => by
    have := (ho b).length_eq
    rw [h0, List.length_range] at this
    exact hb this.symm
  by_contra hF
  unfold frobRoutine at h
  cases nd with
  | true =>
    simp only [if_true] at h
    obtain ⟨D, -, h⟩ := Res.bind_eq_ok.1 h
    obtain ⟨r, hr, h⟩ := Res.bind_eq_ok.1 h
    obtain rfl := Except.ok.inj h
    unfold frobMatrixND at hr
    obtain ⟨_, -, hr⟩ := Res.bind_eq_ok.1 hr
    obtain ⟨T0, -, hr⟩ := Res.bind_eq_ok.1 hr
    obtain ⟨s, hs, -⟩ := Res.bind_eq_ok.1 hr
    obtain ⟨i, -, s', hi⟩ := foldlM_head _ hs (hne _ hF)
    unfold frobIterND at hi
    obtain ⟨b, -, hi⟩ := Res.bind_eq_ok.1 hi
    split_ifs at hi
    obtain ⟨x, hx, hi⟩ := Res.bind_eq_ok.1 hi
    have h69 := hget _ _ hx
    rw [if_pos (by omega)] at hi
    obtain ⟨c, hc, -⟩ := Res.bind_eq_ok.1 hi
    exact ((C32_frob_stops x.toNat (by omega) _ _ _ _ _ _).2 _ .poly true).2.2 hc
  | false =>
    simp only [Bool.false_eq_true, if_false] at h
    obtain ⟨D, -, h⟩ := Res.bind_eq_ok.1 h
    obtain ⟨r, hr, h⟩ := Res.bind_eq_ok.1 h
    obtain rfl := Except.ok.inj h
    unfold frobMatrixJ at hr
    obtain ⟨_, -, hr⟩ := Res.bind_eq_ok.1 hr
    obtain ⟨T0, -, hr⟩ := Res.bind_eq_ok.1 hr
    obtain ⟨s, hs, -⟩ := Res.bind_eq_ok.1 hr
    obtain ⟨i, -, s', hi⟩ := foldlM_head _ hs (hne _ hF)
    unfold frobIter at hi
    obtain ⟨b, -, hi⟩ := Res.bind_eq_ok.1 hi
    split_ifs at hi
    obtain ⟨x, hx, hi⟩ := Res.bind_eq_ok.1 hi
    have h69 := hget _ _ hx
    rw [if_pos (by omega)] at hi
    obtain ⟨c, hc, -⟩ := Res.bind_eq_ok.1 hi
    exact ((C32_frob_stops x.toNat (by omega) _ _ _ _ _ _).1 _ .poly).1 hc

/-- **C65 (too many digits, wrong).**  `zeta_function` accepts every requested precision for large enough primes (C40), but with a requested
precision of 69 or more it never returns a result: whatever the polynomial, the prime, the other options, the random numbers, the number of
threads and the order of the parallel loop. -/
theorem C65_many_digits_wrong (la : RankDet (ZMod p)) (rnd : Rnd (ZMod p)) (t : ℕ) (la' : LinAlg (ZMod p)) (flint pre : Bool)
    {order : ℕ → List ℕ} (ho : ∀ b, (order b).Perm (List.range b)) (f : MonMap Int) (hf : WFPoly (n + 1) f) (hne : f ≠ [])
    (hdeg : ∀ e ∈ f, deg e.1 = d) (abs : ℤ) (habs : 69 ≤ abs) (increase better : Bool) (r : List ℤ × CMat ℤ) :
    zetaMain p la rnd t (frobRoutine p la' flint pre order) f abs increase better ≠ .ok (some r) := by
  intro h
  rw [zetaMain_eq la rnd t _ f hf hne hdeg] at h
  obtain ⟨z, hz, h⟩ := Res.bind_eq_ok.1 h
  obtain ⟨o, -, h⟩ := Res.bind_eq_ok.1 h
  cases o with
  | none => cases h
  | some o =>
    obtain ⟨nd, g⟩ := o
    obtain ⟨F, hF, h⟩ := Res.bind_eq_ok.1 h
    obtain ⟨_, hc, h⟩ := Res.bind_eq_ok.1 h
    cases ha : defaultArgs p n d with
    | error e => rw [choosePrec, ha] at hz; cases hz
    | ok a =>
      obtain ⟨k1, k2, k3, k4⟩ := pairs_bounds (defaultPairs_mem ha)
      rcases C40_precision p hprime.out n d abs increase a ha (by omega) with ⟨z', h1, hS⟩ | ⟨h1, -⟩
      · obtain rfl := Except.ok.inj (h1.symm.trans hz)
        have hN : ∀ x ∈ z'.N, 69 ≤ x := fun x hx => by
          obtain ⟨i, hi, rfl⟩ := List.getElem_of_mem hx
          have h2 := hS.terms i (by have := hS.len; omega)
          rw [getD_getElem _ _ _ hi] at h2
          rw [h2]
          split_ifs
          · exact le_trans habs (le_max_right _ _)
          · exact habs
          · omega
        have h0 := frobRoutine_stops ho hN hF
        have hlen := of_decide_eq_true (check_eq_ok.1 hc)
        obtain ⟨b, e1, e2⟩ := charpolyPrec_length hprime.out ha
        rw [h0, hS.charpoly, e1] at hlen
        obtain rfl : b = 0 := by omega
        have hd2 : (2 : ℤ) ≤ (d : ℤ) - 1 := by omega
        rw [show ((n : ℤ) + 1).toNat = n + 1 by omega] at e2
        generalize (d : ℤ) - 1 = x at e2 hd2
        have hx : x ^ 2 ≤ x ^ (n + 1) := pow_le_pow_right₀ (by omega) (by omega)
        have hx2 : x < x ^ 2 := by nlinarith
        rcases neg_one_pow_eq_or ℤ (n + 1) with h | h <;> rw [h] at e2 <;> push_cast at e2 <;> linarith
      · rw [h1] at hz
        cases hz

/-- The precision is accepted: plane cubics, 69 digits, `p = 101`. -/
example : ∃ z, choosePrec 101 2 3 69 false = .ok z ∧ z.N.length = 2 ∧ 69 ≤ z.precision := by
  obtain ⟨a, ha⟩ := (C12_domain 101 2 3).1 (by decide)
  rcases C40_precision 101 (by norm_num) 2 3 69 false a ha (by norm_num) with ⟨z, hz, hS⟩ | ⟨-, i, hi, hp⟩
  · exact ⟨z, hz, by exact_mod_cast hS.len, hS.abs_le⟩
  · rw [if_neg (by decide)] at hp
    push_cast at hp
    omega

end

end Verif
