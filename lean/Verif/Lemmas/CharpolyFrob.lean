import Verif.Lemmas.Charpoly
import Verif.Spec.Charpoly

namespace Verif

open Polynomial Spec

theorem symShift_eq (b dim i : Nat) : symShift b dim i = halfWeight b dim i := rfl

theorem powerZZ_ok (p : Nat) (e : Int) (h : 0 ≤ e) : powerZZ p e = .ok ((p : Int) ^ e.toNat) := by
  simp [powerZZ, not_lt.2 h]

theorem powerZZ_eq_ok {p : Nat} {e m : Int} (h : powerZZ p e = .ok m) :
    0 ≤ e ∧ m = (p : Int) ^ e.toNat := by
  unfold powerZZ at h
  split at h
  · cases h
  · cases h; exact ⟨by omega, rfl⟩

/-- The balanced representative is found. -/
theorem balanced (x S N B : Int) (hN : 0 < N) (hx : x ≡ S [ZMOD N]) (hS : S ^ 2 ≤ B)
    (hB : 4 * B < N ^ 2) :
    (if (x % N) ^ 2 > B then -((-(x % N)) % N) else x % N) = S := by
  have hx' : x % N = S % N := hx
  have hlt : |2 * S| < N := by
    apply abs_lt_of_sq_lt_sq _ hN.le
    nlinarith
  rw [abs_lt] at hlt
  by_cases h0 : 0 ≤ S
  · have : x % N = S := by rw [hx']; exact Int.emod_eq_of_lt h0 (by omega)
    rw [this, if_neg (by omega)]
  · have h1 : x % N = S + N := by
      rw [hx', ← Int.add_emod_right]; exact Int.emod_eq_of_lt (by omega) (by omega)
    rw [h1, if_pos (by nlinarith)]
    have h2 : (-(S + N)) % N = -S := by
      rw [show -(S + N) = -S + N * (-1) by ring, Int.add_mul_emod_self_left]
      exact Int.emod_eq_of_lt (by omega) (by omega)
    rw [h2]; ring

/-- The roots of `P` as a family. -/
theorem exists_roots (P : ℤ[X]) (b : Nat) (hP : P.Monic) (hb : P.natDegree = b) :
    ∃ r : Fin b → ℂ, P.map (Int.castRingHom ℂ) = ∏ i, (X - C (r i)) := by
  set Q := P.map (Int.castRingHom ℂ) with hQ
  have hQm : Q.Monic := hP.map _
  have hs : Q.Splits := IsAlgClosed.splits _
  have hc : Multiset.card Q.roots = b := by
    rw [splits_iff_card_roots.1 hs, hQ, hP.natDegree_map, hb]
  obtain ⟨r, hr⟩ := exists_fin_of_card _ _ hc
  refine ⟨r, ?_⟩
  conv_lhs => rw [hs.eq_prod_roots_of_monic hQm, hr]
  rw [Multiset.map_map]; rfl

theorem exists_powersums (P : ℤ[X]) (b : Nat) (r : Fin b → ℂ)
    (h : P.map (Int.castRingHom ℂ) = ∏ i, (X - C (r i))) :
    ∃ S : Nat → ℤ, ∀ k, 1 ≤ k → k ≤ b → ((S k : ℤ) : ℂ) = ∑ j, r j ^ k := by
  have key : ∀ k, 1 ≤ k → k ≤ b → ∃ z : ℤ, (z : ℂ) = ∑ j, r j ^ k := by
    intro k
    induction k using Nat.strong_induction_on with
    | _ k ih =>
      intro hk1 hk2
      have hz : ∀ i, i ∈ Finset.range (k - 1) → ∃ z : ℤ, (z : ℂ) = ∑ j, r j ^ (i + 1) := by
        intro i hi
        have := Finset.mem_range.1 hi
        exact ih (i + 1) (by omega) (by omega) (by omega)
      choose! z hz using hz
      obtain ⟨m, rfl⟩ : ∃ m, k = m + 1 := ⟨k - 1, by omega⟩
      simp only [Nat.add_sub_cancel] at hz
      have hn := newton r (m + 1)
      rw [Finset.sum_range_succ, Nat.sub_self, es_zero] at hn
      refine ⟨(-1) ^ m * (((m + 1 : ℕ) : ℤ) * ecoef b P (m + 1)
        - ∑ i ∈ Finset.range m, (-1) ^ i * ecoef b P (m + 1 - (i + 1)) * z i), ?_⟩
      push_cast
      rw [ecoef_cast P r h _ hk2]
      have h2 : ∑ i ∈ Finset.range m, (-1 : ℂ) ^ i * (ecoef b P (m + 1 - (i + 1)) : ℂ) * (z i : ℂ)
          = ∑ i ∈ Finset.range m, (-1 : ℂ) ^ i * es r (m + 1 - (i + 1)) * ∑ j, r j ^ (i + 1) := by
        refine Finset.sum_congr rfl (fun i hi => ?_)
        rw [hz i hi, ecoef_cast P r h _ (by omega)]
      simp only [Nat.add_sub_add_right] at h2
      rw [h2]
      push_cast at hn
      rw [hn]
      have : ((-1 : ℂ)) ^ m * (-1) ^ m = 1 := by rw [← mul_pow]; simp
      linear_combination (∑ j, r j ^ (m + 1)) * this
  choose! S hS using key
  exact ⟨S, hS⟩

theorem newton_int (P : ℤ[X]) (b : Nat) (r : Fin b → ℂ)
    (h : P.map (Int.castRingHom ℂ) = ∏ i, (X - C (r i))) (S : Nat → ℤ)
    (hS : ∀ k, 1 ≤ k → k ≤ b → ((S k : ℤ) : ℂ) = ∑ j, r j ^ k) (k : Nat) (hk : k + 1 ≤ b) :
    ((k + 1 : ℕ) : ℤ) * ecoef b P (k + 1)
      = ∑ i ∈ Finset.range k, (-1) ^ i * (ecoef b P (k + 1 - (i + 1)) * S (i + 1))
        + (-1) ^ k * S (k + 1) := by
  apply Int.cast_injective (α := ℂ)
  have hn := newton r (k + 1)
  rw [Finset.sum_range_succ, Nat.sub_self, es_zero] at hn
  push_cast at hn ⊢
  rw [ecoef_cast P r h _ hk, hn, hS _ (by omega) hk, mul_one]
  congr 1
  refine Finset.sum_congr rfl (fun i hi => ?_)
  have := Finset.mem_range.1 hi
  rw [hS _ (by omega) (by omega), ecoef_cast P r h _ (by omega)]
  ring

theorem weil_bound (P : ℤ[X]) (b p dim : Nat) (hW : WeilRoots P p dim) (r : Fin b → ℂ)
    (h : P.map (Int.castRingHom ℂ) = ∏ i, (X - C (r i))) (S : ℤ) (k : Nat)
    (hS : (S : ℂ) = ∑ j, r j ^ k) :
    S ^ 2 ≤ (b : ℤ) * b * (p : ℤ) ^ (dim * k) := by
  have hr : ∀ j, ‖r j‖ ^ 2 = (p : ℝ) ^ dim := by
    intro j
    apply hW
    have : aeval (r j) P = (P.map (Int.castRingHom ℂ)).eval (r j) := by
      rw [eval_map]; rfl
    rw [this, h, eval_prod]
    exact Finset.prod_eq_zero (Finset.mem_univ j) (by simp)
  have hrs : ∀ j, ‖r j‖ = Real.sqrt ((p : ℝ) ^ dim) := by
    intro j
    rw [← hr j, Real.sqrt_sq (norm_nonneg _)]
  have h1 : |(S : ℝ)| ≤ b * Real.sqrt ((p : ℝ) ^ dim) ^ k := by
    have : |(S : ℝ)| = ‖(S : ℂ)‖ := by simp
    rw [this, hS]
    refine (norm_sum_le _ _).trans ?_
    simp only [norm_pow, hrs]
    simp
  have h2 : (S : ℝ) ^ 2 ≤ (b * Real.sqrt ((p : ℝ) ^ dim) ^ k) ^ 2 := by
    rw [← sq_abs]
    exact pow_le_pow_left₀ (abs_nonneg _) h1 2
  have h3 : (b * Real.sqrt ((p : ℝ) ^ dim) ^ k) ^ 2 = (b : ℝ) * b * (p : ℝ) ^ (dim * k) := by
    rw [mul_pow, ← pow_mul, mul_comm k 2, pow_mul, Real.sq_sqrt (by positivity), pow_mul]; ring
  rw [h3] at h2
  exact_mod_cast h2

theorem liftStep_ok (p b dim : Nat) (md : Nat → Int) (k : Nat) (hk : k + 1 ≤ b) (P : ℤ[X])
    (S : Nat → ℤ) (e s cp : Nat → Int)
    (hN : ((k + 1 : ℕ) : ℤ) * ecoef b P (k + 1)
      = ∑ i ∈ Finset.range k, (-1) ^ i * (ecoef b P (k + 1 - (i + 1)) * S (i + 1))
        + (-1) ^ k * S (k + 1))
    (he : ∀ j, 1 ≤ j → j ≤ k → e j = ecoef b P j) (hs : ∀ j, 1 ≤ j → j ≤ k → s j = S j)
    (hek : e (k + 1) ≡ ecoef b P (k + 1) [ZMOD md (b - (k + 1))])
    (hmd : 0 < md (b - (k + 1)))
    (hS : S (k + 1) ^ 2 ≤ (b : ℤ) * b * (p : ℤ) ^ (dim * (k + 1)))
    (hB : 4 * ((b : ℤ) * b * (p : ℤ) ^ (dim * (k + 1))) < (((k + 1 : ℕ) : ℤ) * md (b - (k + 1))) ^ 2) :
    liftStep p b dim md (k + 1) (e, s, cp)
      = .ok (upd e (k + 1) (ecoef b P (k + 1)), upd s (k + 1) (S (k + 1)),
          upd cp (b - (k + 1)) (P.coeff (b - (k + 1)))) := by
  have hsum : sumLoop (k + 1 - 1)
      (fun j => (if (j + 1) % 2 = 1 then (1 : ℤ) else -1) * e (k + 1 - (j + 1)) * s (j + 1))
      = ∑ i ∈ Finset.range k, (-1) ^ i * (ecoef b P (k + 1 - (i + 1)) * S (i + 1)) := by
    rw [sumLoop_eq_sum, Nat.add_sub_cancel]
    refine Finset.sum_congr rfl (fun i hi => ?_)
    have hi' := Finset.mem_range.1 hi
    rw [he _ (by omega) (by omega), hs _ (by omega) (by omega)]
    have : (if (i + 1) % 2 = 1 then (1 : ℤ) else -1) = (-1) ^ i := by
      rcases Nat.even_or_odd' i with ⟨m, rfl | rfl⟩
      · rw [if_pos (by omega), pow_mul]; simp
      · rw [if_neg (by omega), pow_succ, pow_mul]; simp
    rw [this]; ring
  set T := ∑ i ∈ Finset.range k, (-1) ^ i * (ecoef b P (k + 1 - (i + 1)) * S (i + 1)) with hT
  have hsgn : (if (k + 1) % 2 = 0 then (1 : ℤ) else -1) = (-1) ^ (k + 1) := by
    rw [neg_one_pow_ite, mul_one]
  have hsq : ((-1 : ℤ)) ^ k * (-1) ^ k = 1 := by rw [← mul_pow]; simp
  have hcong : (-1) ^ (k + 1) * (T - ((k + 1 : ℕ) : ℤ) * e (k + 1))
      ≡ S (k + 1) [ZMOD ((k + 1 : ℕ) : ℤ) * md (b - (k + 1))] := by
    obtain ⟨t, ht⟩ := hek.dvd
    have : (-1) ^ (k + 1) * (T - ((k + 1 : ℕ) : ℤ) * e (k + 1)) - S (k + 1)
        = ((k + 1 : ℕ) : ℤ) * md (b - (k + 1)) * ((-1) ^ (k + 1) * t) := by
      have h1 : e (k + 1) = ecoef b P (k + 1) - md (b - (k + 1)) * t := by rw [← ht]; ring
      rw [h1, pow_succ]
      linear_combination (-1 : ℤ) ^ k * hN + S (k + 1) * hsq
    exact (Int.modEq_of_dvd ⟨_, this⟩).symm
  have hbal := balanced _ _ _ _ (by positivity) hcong hS hB
  unfold liftStep
  simp only [hsum, hsgn]
  rw [hbal]
  have hnum : (T + if (k + 1) % 2 = 0 then -S (k + 1) else S (k + 1))
      = ((k + 1 : ℕ) : ℤ) * ecoef b P (k + 1) := by
    have : (if (k + 1) % 2 = 0 then -S (k + 1) else S (k + 1)) = (-1) ^ k * S (k + 1) := by
      rcases Nat.even_or_odd' k with ⟨m, rfl | rfl⟩
      · rw [if_neg (by omega), pow_mul]; simp
      · rw [if_pos (by omega), pow_succ, pow_mul]; simp
    rw [this, hN]
  rw [hnum, Int.mul_emod_right, Int.mul_ediv_cancel_left _ (by omega)]
  simp only [decide_true, check_true, Res.bind_ok, Res.pure_eq]
  rw [neg_one_pow_ite]
  have : (-1) ^ (k + 1) * ecoef b P (k + 1) = P.coeff (b - (k + 1)) := by
    rw [ecoef, ← mul_assoc, ← mul_pow]; simp
  rw [this]

/-! ### the passes before the lift -/

theorem frobReduce_ok (p b : Nat) (prec cp : Nat → Int) (hprec : ∀ i, i ≤ b → 0 ≤ prec i) :
    ∃ st, frobReduce p b ⟨prec, fun _ => 0, cp⟩ = .ok st ∧ st.prec = prec ∧
      ∀ i, i ≤ b → st.md i = (p : Int) ^ (prec i).toNat ∧ st.cp i = cp i % (p : Int) ^ (prec i).toNat := by
  unfold frobReduce
  obtain ⟨s, h1, h2⟩ := forRange_inv (n := b + 1) (s := (⟨prec, fun _ => 0, cp⟩ : FrobSt))
    (f := fun i st => do
      let m ← powerZZ p (st.prec i)
      pure { st with md := upd st.md i m, cp := upd st.cp i (st.cp i % m) })
    (fun i st => st.prec = prec ∧ (∀ j, j < i → st.md j = (p : Int) ^ (prec j).toNat ∧
      st.cp j = cp j % (p : Int) ^ (prec j).toNat) ∧ ∀ j, i ≤ j → st.cp j = cp j)
    ⟨rfl, by intro j hj; omega, fun _ _ => rfl⟩
    (by
      rintro i ⟨pr, md, c⟩ hi ⟨h1, h2, h3⟩
      simp only at h1 h2 h3
      subst h1
      refine ⟨_, by rw [powerZZ_ok _ _ (hprec i (by omega))]; rfl, rfl, ?_, ?_⟩
      · intro j hj
        by_cases h : j = i
        · subst h; simp [h3 j (le_refl _)]
        · simp only [upd_ne _ _ _ _ h]; exact h2 j (by omega)
      · intro j hj
        simp only [upd_ne _ _ _ _ (show j ≠ i by omega)]; exact h3 j (by omega))
  exact ⟨s, h1, h2.1, fun i hi => h2.2.1 i (by omega)⟩

/-- What is known about the vectors before the sign search. -/
theorem signLoop_ok (p b dim : Nat) (hp : Odd p) (P : ℤ[X]) (ε : ℤ) (hε : ε = 1 ∨ ε = -1)
    (hfe : FunctionalEquation P b p dim ε) (prec cp : Nat → Int)
    (hprec : ∀ i, i ≤ b → 0 ≤ prec i)
    (hcp : ∀ i, 1 ≤ i → i < b → cp i ≡ P.coeff i [ZMOD (p : Int) ^ (prec i).toNat])
    (cnt i : Nat) (hi : 1 ≤ i) (hcnt : 2 * (i + cnt) ≤ b + 2)
    (hex : ε = 1 ∨ ∃ j, i ≤ j ∧ j < i + cnt ∧
      ¬ (p : ℤ) ^ (min (prec j) (prec (b - j) + halfWeight b dim j)).toNat ∣ P.coeff j) :
    signLoop p b dim prec cp cnt i = .ok ε := by
  induction cnt generalizing i with
  | zero =>
    rcases hex with h | ⟨j, h1, h2, _⟩
    · rw [signLoop, h]
    · omega
  | succ cnt ih =>
    have hle : 2 * i ≤ b := by omega
    have hm0 : 0 ≤ min (prec i) (prec (b - i) + symShift b dim i) := by
      have h1 := hprec i (by omega)
      have h2 := hprec (b - i) (by omega)
      exact le_min h1 (by positivity)
    rw [signLoop, powerZZ_ok _ _ hm0, Res.bind_ok]
    set pp : ℤ := (p : ℤ) ^ (min (prec i) (prec (b - i) + symShift b dim i)).toNat with hpp
    set sh := symShift b dim i with hsh
    -- the two coefficients modulo pp
    have hd1 : pp ∣ (p : Int) ^ (prec i).toNat := pow_dvd_pow _ (by omega)
    have hc1 : cp i ≡ P.coeff i [ZMOD pp] := (hcp i hi (by omega)).of_dvd hd1
    have hd2 : pp ∣ (p : Int) ^ sh * (p : Int) ^ (prec (b - i)).toNat := by
      rw [← pow_add]
      have := hprec (b - i) (by omega)
      exact pow_dvd_pow _ (by omega)
    have hc2 : cp (b - i) * (p : Int) ^ sh ≡ ε * P.coeff i [ZMOD pp] := by
      have h1 : (p : Int) ^ sh * cp (b - i) ≡ (p : Int) ^ sh * P.coeff (b - i)
          [ZMOD (p : Int) ^ sh * (p : Int) ^ (prec (b - i)).toNat] :=
        Int.ModEq.mul_left' (hcp (b - i) (by omega) (by omega))
      have h2 := h1.of_dvd hd2
      rw [mul_comm] at h2
      have h3 : ε * P.coeff i = (p : Int) ^ sh * P.coeff (b - i) := by
        rw [hfe i hle, ← symShift_eq, ← hsh]
        rcases hε with rfl | rfl <;> ring
      rw [h3]; exact h2
    by_cases hz : pp ∣ P.coeff i
    · -- not readable at i
      have : cp i % pp = 0 := Int.emod_eq_zero_of_dvd ((Int.ModEq.dvd_iff hc1).2 hz)
      rw [if_neg (by simp [this])]
      apply ih (i + 1) (by omega) (by omega)
      rcases hex with h | ⟨j, h1, h2, h3⟩
      · exact Or.inl h
      · right
        refine ⟨j, ?_, by omega, h3⟩
        rcases Nat.lt_or_ge i j with h | h
        · exact h
        · have : j = i := by omega
          subst this
          exact absurd hz h3
    · have n1 : cp i % pp ≠ 0 := fun h =>
        hz ((Int.ModEq.dvd_iff hc1).1 (Int.dvd_of_emod_eq_zero h))
      have n2 : cp (b - i) % pp ≠ 0 := by
        intro h
        have h1 : pp ∣ cp (b - i) * (p : Int) ^ sh := (Int.dvd_of_emod_eq_zero h).mul_right _
        have h2 : pp ∣ ε * P.coeff i := (Int.ModEq.dvd_iff hc2).1 h1
        rcases hε with rfl | rfl
        · exact hz (by simpa using h2)
        · exact hz (by simpa using h2)
      rw [if_pos ⟨n1, n2⟩]
      have hadd := hc1.add hc2
      have hsub := hc1.sub hc2
      rcases hε with rfl | rfl
      · have hne : ¬ (cp i + cp (b - i) * (p : Int) ^ sh) % pp = 0 := by
          intro h
          have h1 := (Int.ModEq.dvd_iff hadd).1 (Int.dvd_of_emod_eq_zero h)
          rw [one_mul, ← two_mul] at h1
          apply hz
          have hcop : IsCoprime pp 2 := by
            apply IsCoprime.pow_left
            rw [Int.isCoprime_iff_gcd_eq_one]
            have : Nat.gcd p 2 = 1 := (Nat.coprime_two_right).2 hp
            exact_mod_cast this
          exact hcop.dvd_of_dvd_mul_left h1
        rw [if_neg hne]
        have : (cp i - cp (b - i) * (p : Int) ^ sh) % pp = 0 := by
          apply Int.emod_eq_zero_of_dvd
          apply (Int.ModEq.dvd_iff hsub).2
          simp
        simp [this]
      · rw [if_pos]
        apply Int.emod_eq_zero_of_dvd
        apply (Int.ModEq.dvd_iff hadd).2
        simp

theorem symStep_ok (p b dim : Nat) (hp : 0 < p) (P : ℤ[X]) (ε : ℤ) (hε : ε = 1 ∨ ε = -1)
    (hfe : FunctionalEquation P b p dim ε) (prec : Nat → Int) (i : Nat) (hi : 2 * i ≤ b)
    (st : FrobSt)
    (h1 : ∀ j, j ≤ b → (i ≤ j ∧ j ≤ b - i → st.prec j = prec j) ∧
      (j < i ∨ b - i < j → st.prec j = sharedPrec b dim prec j))
    (h2 : ∀ j, j ≤ b → 0 ≤ st.prec j ∧ st.md j = (p : Int) ^ (st.prec j).toNat)
    (h3 : ∀ j, j ≤ b → st.cp j ≡ P.coeff j [ZMOD st.md j]) :
    ∃ st', symStep p b dim ε i st = .ok st' ∧
      (∀ j, j ≤ b → (i + 1 ≤ j ∧ j ≤ b - (i + 1) → st'.prec j = prec j) ∧
        (j < i + 1 ∨ b - (i + 1) < j → st'.prec j = sharedPrec b dim prec j)) ∧
      (∀ j, j ≤ b → 0 ≤ st'.prec j ∧ st'.md j = (p : Int) ^ (st'.prec j).toNat) ∧
      (∀ j, j ≤ b → st'.cp j ≡ P.coeff j [ZMOD st'.md j]) ∧
      (∀ j, j ≠ i → j ≠ b - i → st'.cp j = st.cp j) ∧
      (st'.cp (b - i) = st.cp (b - i) ∨
        st'.cp (b - i) = ε * st.cp i / (p : Int) ^ halfWeight b dim i
          % (p : Int) ^ (sharedPrec b dim prec (b - i)).toNat) := by
  have hpi := (h1 i (by omega)).1 (by omega)
  have hpb := (h1 (b - i) (by omega)).1 (by omega)
  have h2i := h2 i (by omega)
  have h2b := h2 (b - i) (by omega)
  have h3i := h3 i (by omega)
  have h3b := h3 (b - i) (by omega)
  have hff := hfe i hi
  rw [hpi] at h2i
  rw [hpb] at h2b
  rw [h2i.2] at h3i
  rw [h2b.2] at h3b
  have hεε : ε * ε = 1 := by rcases hε with rfl | rfl <;> norm_num
  obtain ⟨sh, hsh⟩ : ∃ sh, sh = halfWeight b dim i := ⟨_, rfl⟩
  rw [← hsh] at hff ⊢
  unfold symStep
  simp only [hpi, hpb, symShift_eq, ← hsh]
  have hsi : sharedPrec b dim prec i = max (prec i) (prec (b - i) + sh) := by
    rw [sharedPrec, if_pos hi, hsh]
  have hsb : sharedPrec b dim prec (b - i) = max (prec (b - i)) (prec i - sh) := by
    unfold sharedPrec
    by_cases hh : 2 * (b - i) ≤ b
    · have hbi : b - i = i := by omega
      have h0 : sh = 0 := by
        rw [hsh, halfWeight, show b - 2 * i = 0 by omega]; simp
      have h0' : halfWeight b dim (b - i) = 0 := by rw [hbi, ← hsh, h0]
      rw [if_pos hh, h0', h0]
      simp [hbi]
    · rw [if_neg hh, show b - (b - i) = i by omega, hsh]
  split
  · rename_i hge
    have hm0 : 0 ≤ prec i - sh := by omega
    rw [upd_self, powerZZ_ok _ _ hm0, Res.bind_ok]
    have hpow : (p : Int) ^ (prec i).toNat = (p : Int) ^ sh * (p : Int) ^ (prec i - sh).toNat := by
      rw [← pow_add]; congr 1; omega
    obtain ⟨t, ht⟩ := h3i.symm.dvd
    have hppos : (0 : ℤ) < (p : Int) ^ sh := by positivity
    have hval : ε * st.cp i = (p : Int) ^ sh * (P.coeff (b - i) + ε * (p : Int) ^ (prec i - sh).toNat * t) := by
      have : st.cp i = P.coeff i + (p : Int) ^ (prec i).toNat * t := by rw [← ht]; ring
      rw [this, hff, hpow]
      linear_combination ((p : Int) ^ sh * P.coeff (b - i)) * hεε
    have e1 : ε * st.cp i % (p : Int) ^ sh = 0 := by rw [hval, Int.mul_emod_right]
    have e2 : ε * st.cp i / (p : Int) ^ sh
        = P.coeff (b - i) + ε * (p : Int) ^ (prec i - sh).toNat * t := by
      rw [hval, Int.mul_ediv_cancel_left _ hppos.ne']
    simp only [e1, e2, decide_true, check_true, Res.bind_ok, Res.pure_eq]
    refine ⟨_, rfl, ?_, ?_, ?_, ?_, ?_⟩
    · intro j hj
      simp only
      refine ⟨fun hh => ?_, fun hh => ?_⟩
      · rw [upd_ne _ _ _ _ (by omega)]; exact (h1 j hj).1 (by omega)
      · by_cases hjb : j = b - i
        · subst hjb
          rw [upd_self, hsb]; omega
        · rw [upd_ne _ _ _ _ hjb]
          by_cases hji : j = i
          · subst hji; rw [hpi, hsi]; omega
          · exact (h1 j hj).2 (by omega)
    · intro j hj
      simp only
      by_cases hjb : j = b - i
      · subst hjb; simp only [upd_self]; exact ⟨hm0, trivial⟩
      · simp only [upd_ne _ _ _ _ hjb]; exact h2 j hj
    · intro j hj
      simp only
      by_cases hjb : j = b - i
      · subst hjb
        simp only [upd_self]
        refine (Int.mod_modEq _ _).trans ?_
        apply (Int.modEq_of_dvd _).symm
        exact ⟨ε * t, by ring⟩
      · simp only [upd_ne _ _ _ _ hjb]; exact h3 j hj
    · intro j hji hjb
      simp only [upd_ne _ _ _ _ hjb]
    · right
      simp only [upd_self, hsb]
      rw [show max (prec (b - i)) (prec i - sh) = prec i - sh by omega]
  · rename_i hge
    have hm0 : 0 ≤ prec (b - i) + sh := by omega
    rw [upd_self, powerZZ_ok _ _ hm0, Res.bind_ok]
    simp only [Res.pure_eq]
    have hne : b - i ≠ i := by
      intro h
      have h0 : sh = 0 := by rw [hsh, halfWeight, show b - 2 * i = 0 by omega]; simp
      rw [h, h0] at hge
      simp at hge
    refine ⟨_, rfl, ?_, ?_, ?_, ?_, ?_⟩
    · intro j hj
      simp only
      refine ⟨fun hh => ?_, fun hh => ?_⟩
      · rw [upd_ne _ _ _ _ (by omega)]; exact (h1 j hj).1 (by omega)
      · by_cases hji : j = i
        · subst hji
          rw [upd_self, hsi]; omega
        · rw [upd_ne _ _ _ _ hji]
          by_cases hjb : j = b - i
          · subst hjb; rw [hpb, hsb]; omega
          · exact (h1 j hj).2 (by omega)
    · intro j hj
      simp only
      by_cases hji : j = i
      · subst hji; simp only [upd_self]; exact ⟨hm0, trivial⟩
      · simp only [upd_ne _ _ _ _ hji]; exact h2 j hj
    · intro j hj
      simp only
      by_cases hji : j = i
      · subst hji
        simp only [upd_self]
        refine (Int.mod_modEq _ _).trans ?_
        obtain ⟨t, ht⟩ := h3b.symm.dvd
        have hpow : (p : Int) ^ (prec (b - j) + sh).toNat
            = (p : Int) ^ sh * (p : Int) ^ (prec (b - j)).toNat := by
          rw [← pow_add]; congr 1; omega
        have : st.cp (b - j) = P.coeff (b - j) + (p : Int) ^ (prec (b - j)).toNat * t := by
          rw [← ht]; ring
        rw [this, hpow, hff]
        apply (Int.modEq_of_dvd _).symm
        exact ⟨ε * t, by ring⟩
      · simp only [upd_ne _ _ _ _ hji]; exact h3 j hj
    · intro j hji hjb
      simp only [upd_ne _ _ _ _ hji]
    · left
      simp only [upd_ne _ _ _ _ hne]

theorem symLoop_ok (p b dim : Nat) (hb : 0 < b) (hp : 0 < p) (P : ℤ[X]) (hlead : P.coeff b = 1) (ε : ℤ)
    (hε : ε = 1 ∨ ε = -1) (hfe : FunctionalEquation P b p dim ε) (prec : Nat → Int) (st : FrobSt)
    (h1 : st.prec = prec)
    (h2 : ∀ j, j ≤ b → 0 ≤ st.prec j ∧ st.md j = (p : Int) ^ (st.prec j).toNat)
    (h3 : ∀ j, j ≤ b → st.cp j ≡ P.coeff j [ZMOD st.md j])
    (h4 : st.cp 0 = P.coeff 0) (h5 : st.cp b = 1) (hpb : 1 < (p : Int) ^ (sharedPrec b dim prec b).toNat) :
    ∃ st', forRange (b / 2 + 1) st (symStep p b dim ε) = .ok st' ∧
      (∀ j, j ≤ b → st'.prec j = sharedPrec b dim prec j) ∧
      (∀ j, j ≤ b → 0 ≤ st'.prec j ∧ st'.md j = (p : Int) ^ (st'.prec j).toNat) ∧
      (∀ j, j ≤ b → st'.cp j ≡ P.coeff j [ZMOD st'.md j]) ∧ st'.cp b = 1 := by
  have hεε : ε * ε = 1 := by rcases hε with rfl | rfl <;> norm_num
  obtain ⟨s, e, hs⟩ := forRange_inv (n := b / 2 + 1) (s := st) (f := symStep p b dim ε)
    (fun i st => (∀ j, j ≤ b → (i ≤ j ∧ j ≤ b - i → st.prec j = prec j) ∧
        (j < i ∨ b - i < j → st.prec j = sharedPrec b dim prec j)) ∧
      (∀ j, j ≤ b → 0 ≤ st.prec j ∧ st.md j = (p : Int) ^ (st.prec j).toNat) ∧
      (∀ j, j ≤ b → st.cp j ≡ P.coeff j [ZMOD st.md j]) ∧ st.cp b = 1 ∧
      (i = 0 → st.cp 0 = P.coeff 0))
    ⟨fun j hj => ⟨fun _ => by rw [h1], fun h => by omega⟩, h2, h3, h5, fun _ => h4⟩
    (by
      rintro i st hi ⟨g1, g2, g3, g4, g5⟩
      obtain ⟨st', e', a1, a2, a3, a4, a5⟩ :=
        symStep_ok p b dim hp P ε hε hfe prec i (by omega) st g1 g2 g3
      refine ⟨st', e', a1, a2, a3, ?_, by omega⟩
      by_cases h0 : i = 0
      · subst h0
        rcases a5 with a5 | a5
        · rw [Nat.sub_zero] at a5; rw [a5, g4]
        · rw [Nat.sub_zero, g5 rfl, hfe 0 (by omega), Nat.sub_zero, hlead] at a5
          rw [a5]
          have : ε * (ε * (p : ℤ) ^ halfWeight b dim 0 * 1) = (p : ℤ) ^ halfWeight b dim 0 := by
            linear_combination ((p : ℤ) ^ halfWeight b dim 0) * hεε
          rw [this, Int.ediv_self (by positivity)]
          exact Int.emod_eq_of_lt (by norm_num) hpb
      · rw [a4 b (by omega) (by omega), g4])
  exact ⟨s, e, fun j hj => (hs.1 j hj).2 (by omega), hs.2.1, hs.2.2.1, hs.2.2.2.1⟩

theorem precAssert_iff (p b dim : Nat) (prec : Int) (k : Nat) :
    precAssert p b dim prec k = true ↔ 0 ≤ prec ∧
      (2 * b : ℝ) * (p : ℝ) ^ ((dim * k : ℝ) / 2) < k * (p : ℝ) ^ prec := by
  unfold precAssert
  rw [decide_eq_true_iff]
  refine and_congr_right (fun h0 => ?_)
  obtain ⟨m, rfl⟩ := Int.eq_ofNat_of_zero_le h0
  have hp0 : (0 : ℝ) ≤ p := by positivity
  have h1 : ((p : ℝ) ^ ((dim * k : ℝ) / 2)) ^ 2 = (p : ℝ) ^ (dim * k) := by
    rw [← Real.rpow_natCast, ← Real.rpow_mul hp0, ← Real.rpow_natCast]
    congr 1
    push_cast
    ring
  have h2 : ((2 * b : ℝ) * (p : ℝ) ^ ((dim * k : ℝ) / 2)) ^ 2 = ((4 * b ^ 2 * p ^ (dim * k) : ℕ) : ℝ) := by
    rw [mul_pow, h1]; push_cast; ring
  have h3 : ((k : ℝ) * (p : ℝ) ^ (m : ℤ)) ^ 2 = ((k ^ 2 * p ^ (2 * m) : ℕ) : ℝ) := by
    rw [mul_pow, zpow_natCast, ← pow_mul]; push_cast; ring
  have hl : 0 ≤ (2 * b : ℝ) * (p : ℝ) ^ ((dim * k : ℝ) / 2) := by positivity
  have hr : 0 ≤ (k : ℝ) * (p : ℝ) ^ (m : ℤ) := by positivity
  show _ ↔ _ < (k : ℝ) * (p : ℝ) ^ (m : ℤ)
  rw [← sq_lt_sq₀ hl hr, h2, h3, Nat.cast_lt]
  rfl

theorem forRange_check_ok (n : Nat) (c : Nat → Bool) (h : ∀ k, k < n → c k = true) :
    forRange n () (fun k _ => check (c k)) = .ok () := by
  induction n with
  | zero => rfl
  | succ n ih =>
    rw [forRange, ih (fun k hk => h k (by omega)), Res.bind_ok, h n (by omega)]; rfl

/-- The assertion for `k = b` makes the leading coefficient known to at least one digit. -/
theorem lead_prec (p b dim : Nat) (hb : 0 < b) (hp : 0 < p) (prec : Nat → Int)
    (h : precAssert p b dim (sharedPrec b dim prec 0) b = true) :
    1 < (p : ℤ) ^ (sharedPrec b dim prec b).toNat ∧ 1 ≤ sharedPrec b dim prec b := by
  unfold precAssert at h
  obtain ⟨h0, h1⟩ := of_decide_eq_true h
  have hs0 : sharedPrec b dim prec 0 = max (prec 0) (prec b + halfWeight b dim 0) := by
    rw [sharedPrec, if_pos (by omega)]; rfl
  have hsb : sharedPrec b dim prec b = max (prec b) (prec 0 - halfWeight b dim 0) := by
    rw [sharedPrec, if_neg (by omega), Nat.sub_self]
  obtain ⟨x, hx⟩ := Int.eq_ofNat_of_zero_le h0
  have hx' : (sharedPrec b dim prec 0).toNat = x := by rw [hx]; rfl
  rw [hx'] at h1
  have h2 : 4 * p ^ (dim * b) < p ^ (2 * x) := by
    have : b ^ 2 * (4 * p ^ (dim * b)) < b ^ 2 * p ^ (2 * x) := by
      calc _ = 4 * b ^ 2 * p ^ (dim * b) := by ring
        _ < _ := h1
    exact lt_of_mul_lt_mul_left this (Nat.zero_le _)
  have hp2 : 2 ≤ p := by
    by_contra hlt
    have : p = 1 := by omega
    subst this
    simp at h2
  have h3 : dim * b < 2 * x := by
    by_contra hle
    have := Nat.pow_le_pow_right hp (show 2 * x ≤ dim * b by omega)
    omega
  have h4 : halfWeight b dim 0 * 2 ≤ dim * b := by
    rw [halfWeight, Nat.mul_zero, Nat.sub_zero, mul_comm b dim]; exact Nat.div_mul_le_self _ _
  have h5 : 1 ≤ sharedPrec b dim prec b := by omega
  refine ⟨?_, h5⟩
  have : 1 < p ^ (sharedPrec b dim prec b).toNat := Nat.one_lt_pow (by omega) (by omega)
  exact_mod_cast this

theorem charpolyFrob_ok {b : Nat} (hb : 0 < b) (A : Matrix (Fin b) (Fin b) ℤ) (P : ℤ[X])
    (hP : P.Monic) (hdeg : P.natDegree = b) (p dim : Nat) (hp : Odd p) (hW : WeilRoots P p dim)
    (ε : ℤ) (hε : ε = 1 ∨ ε = -1) (hfe : FunctionalEquation P b p dim ε) (prec : List Int)
    (hlen : prec.length = b + 1) (hpos : ∀ x ∈ prec, 0 ≤ x)
    (hA : ∀ i, 1 ≤ i → i < b → A.charpoly.coeff i ≡ P.coeff i [ZMOD (p : ℤ) ^ (prec.getD i 0).toNat])
    (hen : EnoughPrec b p dim (fun i => prec.getD i 0))
    (hsign : ε = 1 ∨ (Even dim ∧ ∃ j, 1 ≤ j ∧ 2 * j ≤ b ∧
      ¬ (p : ℤ) ^ (min (prec.getD j 0) (prec.getD (b - j) 0 + halfWeight b dim j)).toNat ∣ P.coeff j)) :
    charpolyFrob (CMat.ofMatrix A) prec p dim = .ok ((List.range (b + 1)).map P.coeff) := by
  have hp0 : 0 < p := hp.pos
  have hPb : P.coeff b = 1 := by rw [← hdeg]; exact hP.coeff_natDegree
  have hlead := (lead_prec p b dim hb hp0 (fun i => prec.getD i 0) (by
    rw [precAssert_iff]
    have := hen b hb (le_refl b)
    rwa [Nat.sub_self] at this)).1
  have hcp : ∀ i, i ≤ b → ((List.range (b + 1)).map A.charpoly.coeff).getD i 0 = A.charpoly.coeff i := by
    intro i hi
    rw [List.getD_eq_getElem?_getD, List.getElem?_map, List.getElem?_range (by omega)]; rfl
  have hprec : ∀ i, i ≤ b → 0 ≤ prec.getD i 0 := by
    intro i hi
    rw [List.getD_eq_getElem?_getD, List.getElem?_eq_getElem (by omega)]
    exact hpos _ (List.getElem_mem _)
  unfold charpolyFrob
  rw [charpoly_ofMatrix hb, Res.bind_ok]
  have hl : ((List.range (b + 1)).map A.charpoly.coeff).length = b + 1 := by simp
  simp only [hl, hlen, decide_true, check_true, Res.bind_ok, Nat.add_sub_cancel]
  obtain ⟨st, e1, p1, m1⟩ := frobReduce_ok p b (fun i => prec.getD i 0)
    (fun i => ((List.range (b + 1)).map A.charpoly.coeff).getD i 0) hprec
  rw [e1, Res.bind_ok]
  -- the state before the sign search
  have hc1 : ∀ i, 1 ≤ i → i < b → (upd st.cp b 1) i ≡ P.coeff i [ZMOD (p : Int) ^ (prec.getD i 0).toNat] := by
    intro i h1 h2
    rw [upd_ne _ _ _ _ (by omega), (m1 i (by omega)).2, hcp i (by omega)]
    exact (Int.mod_modEq _ _).trans (hA i h1 h2)
  have hsig : frobSign p b dim st.prec (upd st.cp b 1) = .ok ε := by
    unfold frobSign
    split
    · rw [p1]
      refine signLoop_ok p b dim hp P ε hε hfe _ _ hprec hc1 (b / 2) 1 (le_refl _) (by omega) ?_
      rcases hsign with h | ⟨_, j, h1, h2, h3⟩
      · exact Or.inl h
      · exact Or.inr ⟨j, h1, by omega, h3⟩
    · rcases hsign with h | ⟨h, _⟩
      · rw [h]
      · rw [Nat.even_iff] at h; omega
  rw [hsig, Res.bind_ok]
  have hc0 : ε * (p : ℤ) ^ (b * dim / 2) = P.coeff 0 := by
    rw [hfe 0 (by omega), Nat.sub_zero, hPb, mul_one]; rfl
  rw [hc0]
  obtain ⟨st2, e2, q1, q2, q3, q4⟩ := symLoop_ok p b dim hb hp0 P hPb ε hε hfe (fun i => prec.getD i 0)
    { st with cp := upd (upd st.cp b 1) 0 (P.coeff 0) } p1
    (by
      intro j hj
      show 0 ≤ st.prec j ∧ st.md j = (p : Int) ^ (st.prec j).toNat
      rw [p1]
      exact ⟨hprec j hj, (m1 j hj).1⟩)
    (by
      intro j hj
      show upd (upd st.cp b 1) 0 (P.coeff 0) j ≡ P.coeff j [ZMOD st.md j]
      rw [(m1 j hj).1]
      by_cases h0 : j = 0
      · subst h0; rw [upd_self]
      · rw [upd_ne _ _ _ _ h0]
        by_cases hjb : j = b
        · subst hjb; rw [upd_self, hPb]
        · exact hc1 j (by omega) (by omega))
    (by simp)
    (by
      show upd (upd st.cp b 1) 0 (P.coeff 0) b = 1
      rw [upd_ne _ _ _ _ (by omega), upd_self])
    hlead
  rw [e2, Res.bind_ok]
  rw [forRange_check_ok b (fun k => precAssert p b dim (st2.prec (b - (k + 1))) (k + 1)) (by
    intro k hk
    rw [q1 _ (by omega), precAssert_iff]
    exact hen (k + 1) (by omega) (by omega)), Res.bind_ok]
  -- the lift
  obtain ⟨r, hr⟩ := exists_roots P b hP hdeg
  obtain ⟨S, hS⟩ := exists_powersums P b r hr
  obtain ⟨out, e3, -, -, o3⟩ := forRange_inv (n := b)
    (s := ((fun k => if k % 2 = 0 then st2.cp (b - k) else -st2.cp (b - k)), (fun _ => (0 : Int)), st2.cp))
    (f := fun k st' => liftStep p b dim st2.md (k + 1) st')
    (fun i s => (∀ j, j ≤ b → (1 ≤ j → j ≤ i → s.1 j = ecoef b P j) ∧
        (i < j → s.1 j = if j % 2 = 0 then st2.cp (b - j) else -st2.cp (b - j))) ∧
      (∀ j, 1 ≤ j → j ≤ i → s.2.1 j = S j) ∧
      (∀ j, j ≤ i → s.2.2 (b - j) = P.coeff (b - j)))
    (by
      refine ⟨fun j hj => ⟨fun h1 h2 => by omega, fun _ => rfl⟩, fun j h1 h2 => by omega, ?_⟩
      intro j hj
      have : j = 0 := by omega
      subst this
      simp only [Nat.sub_zero, q4, hPb])
    (by
      rintro k ⟨e, s, cp⟩ hk ⟨he, hs, hcp'⟩
      simp only at he hs hcp'
      have hq := q2 (b - (k + 1)) (by omega)
      have hmpos : 0 < st2.md (b - (k + 1)) := by rw [hq.2]; positivity
      refine ⟨_, liftStep_ok p b dim st2.md k (by omega) P S e s cp
        (newton_int P b r hr S hS k (by omega))
        (fun j h1 h2 => (he j (by omega)).1 h1 h2) hs ?_ hmpos
        (weil_bound P b p dim hW r hr _ _ (hS _ (by omega) (by omega))) ?_, ?_, ?_, ?_⟩
      · rw [(he (k + 1) (by omega)).2 (by omega), neg_one_pow_ite, ecoef]
        exact (q3 (b - (k + 1)) (by omega)).mul_left _
      · have h1 := hen (k + 1) (by omega) (by omega)
        rw [← precAssert_iff, ← q1 _ (by omega)] at h1
        unfold precAssert at h1
        have h2 := (of_decide_eq_true h1).2
        rw [hq.2]
        have h3 : (4 * (b : ℤ) ^ 2 * (p : ℤ) ^ (dim * (k + 1)))
            < ((k + 1 : ℕ) : ℤ) ^ 2 * (p : ℤ) ^ (2 * (st2.prec (b - (k + 1))).toNat) := by
          exact_mod_cast h2
        rw [mul_pow, ← pow_mul, mul_comm _ 2]
        calc _ = (4 * (b : ℤ) ^ 2 * (p : ℤ) ^ (dim * (k + 1))) := by ring
          _ < _ := h3
      · intro j hj
        refine ⟨fun h1 h2 => ?_, fun h1 => ?_⟩
        · by_cases h : j = k + 1
          · subst h; simp
          · simp only [upd_ne _ _ _ _ h]; exact (he j hj).1 h1 (by omega)
        · simp only [upd_ne _ _ _ _ (show j ≠ k + 1 by omega)]; exact (he j hj).2 (by omega)
      · intro j h1 h2
        by_cases h : j = k + 1
        · subst h; simp
        · simp only [upd_ne _ _ _ _ h]; exact hs j h1 (by omega)
      · intro j hj
        by_cases h : j = k + 1
        · subst h; simp
        · simp only [upd_ne _ _ _ _ (show b - j ≠ b - (k + 1) by omega)]; exact hcp' j (by omega))
  rw [e3, Res.bind_ok, Res.pure_eq]
  congr 1
  apply List.map_congr_left
  intro j hj
  rw [List.mem_range] at hj
  have := o3 (b - j) (by omega)
  rwa [show b - (b - j) = j by omega] at this

/-! ### what holds for every returned value -/

theorem frobReduce_facts (p b : Nat) (prec cp : Nat → Int) (st : FrobSt)
    (h : frobReduce p b ⟨prec, fun _ => 0, cp⟩ = .ok st) :
    st.prec = prec ∧ ∀ i, i ≤ b → 0 ≤ prec i ∧ st.md i = (p : Int) ^ (prec i).toNat := by
  have := forRange_ok_inv (n := b + 1)
    (fun i (st : FrobSt) => st.prec = prec ∧
      ∀ j, j < i → 0 ≤ prec j ∧ st.md j = (p : Int) ^ (prec j).toNat)
    ⟨rfl, by intro j hj; omega⟩
    (by
      rintro i st s' hi ⟨g1, g2⟩ he
      obtain ⟨m, e1, e2⟩ := Res.bind_eq_ok.1 he
      cases e2
      obtain ⟨k1, k2⟩ := powerZZ_eq_ok e1
      rw [g1] at k1 k2
      refine ⟨g1, fun j hj => ?_⟩
      by_cases hji : j = i
      · subst hji; simp only [upd_self]; exact ⟨k1, k2⟩
      · simp only [upd_ne _ _ _ _ hji]; exact g2 j (by omega)) h
  exact ⟨this.1, fun i hi => this.2 i (by omega)⟩

theorem signLoop_values (p b dim : Nat) (prec cp : Nat → Int) (cnt i : Nat) (ε : Int)
    (h : signLoop p b dim prec cp cnt i = .ok ε) : ε = 1 ∨ ε = -1 := by
  induction cnt generalizing i with
  | zero => cases h; exact Or.inl rfl
  | succ cnt ih =>
    rw [signLoop] at h
    obtain ⟨pp, _, h⟩ := Res.bind_eq_ok.1 h
    split at h
    · split at h
      · cases h; exact Or.inr rfl
      · obtain ⟨_, _, h⟩ := Res.bind_eq_ok.1 h
        cases h; exact Or.inl rfl
    · exact ih _ h

theorem symStep_facts (p b dim : Nat) (hp : 0 < p) (ε : ℤ) (hε : ε = 1 ∨ ε = -1)
    (prec : Nat → Int) (i : Nat) (hi : 2 * i ≤ b) (st st' : FrobSt)
    (h : symStep p b dim ε i st = .ok st')
    (h1 : ∀ j, j ≤ b → (i ≤ j ∧ j ≤ b - i → st.prec j = prec j) ∧
      (j < i ∨ b - i < j → st.prec j = sharedPrec b dim prec j))
    (h2 : ∀ j, j ≤ b → 0 ≤ st.prec j ∧ st.md j = (p : Int) ^ (st.prec j).toNat) :
      (∀ j, j ≤ b → (i + 1 ≤ j ∧ j ≤ b - (i + 1) → st'.prec j = prec j) ∧
        (j < i + 1 ∨ b - (i + 1) < j → st'.prec j = sharedPrec b dim prec j)) ∧
      (∀ j, j ≤ b → 0 ≤ st'.prec j ∧ st'.md j = (p : Int) ^ (st'.prec j).toNat) ∧
      (∀ j, j ≠ i → j ≠ b - i → st'.cp j = st.cp j) ∧
      (i ≠ b - i → st'.cp i ≡ ε * (p : ℤ) ^ halfWeight b dim i * st'.cp (b - i)
        [ZMOD (p : ℤ) ^ (sharedPrec b dim prec i).toNat]) ∧
      (st'.cp (b - i) = st.cp (b - i) ∨
        st'.cp (b - i) = ε * st.cp i / (p : Int) ^ halfWeight b dim i
          % (p : Int) ^ (sharedPrec b dim prec (b - i)).toNat) := by
  have hpi := (h1 i (by omega)).1 (by omega)
  have hpb := (h1 (b - i) (by omega)).1 (by omega)
  have h2i := h2 i (by omega)
  have h2b := h2 (b - i) (by omega)
  rw [hpi] at h2i
  rw [hpb] at h2b
  have hεε : ε * ε = 1 := by rcases hε with rfl | rfl <;> norm_num
  obtain ⟨sh, hsh⟩ : ∃ sh, sh = halfWeight b dim i := ⟨_, rfl⟩
  rw [← hsh]
  unfold symStep at h
  simp only [hpi, hpb, symShift_eq, ← hsh] at h
  have hsi : sharedPrec b dim prec i = max (prec i) (prec (b - i) + sh) := by
    rw [sharedPrec, if_pos hi, hsh]
  have hsb : sharedPrec b dim prec (b - i) = max (prec (b - i)) (prec i - sh) := by
    unfold sharedPrec
    by_cases hh : 2 * (b - i) ≤ b
    · have hbi : b - i = i := by omega
      have h0 : sh = 0 := by
        rw [hsh, halfWeight, show b - 2 * i = 0 by omega]; simp
      have h0' : halfWeight b dim (b - i) = 0 := by rw [hbi, ← hsh, h0]
      rw [if_pos hh, h0', h0]
      simp [hbi]
    · rw [if_neg hh, show b - (b - i) = i by omega, hsh]
  split at h
  · rename_i hge
    have hm0 : 0 ≤ prec i - sh := by omega
    rw [upd_self, powerZZ_ok _ _ hm0, Res.bind_ok] at h
    obtain ⟨_, hc, h⟩ := Res.bind_eq_ok.1 h
    have hdiv := of_decide_eq_true (check_eq_ok.1 hc)
    cases h
    have hpow : (p : Int) ^ (prec i).toNat = (p : Int) ^ sh * (p : Int) ^ (prec i - sh).toNat := by
      rw [← pow_add]; congr 1; omega
    refine ⟨?_, ?_, ?_, ?_, ?_⟩
    · intro j hj
      simp only
      refine ⟨fun hh => ?_, fun hh => ?_⟩
      · rw [upd_ne _ _ _ _ (by omega)]; exact (h1 j hj).1 (by omega)
      · by_cases hjb : j = b - i
        · subst hjb
          rw [upd_self, hsb]; omega
        · rw [upd_ne _ _ _ _ hjb]
          by_cases hji : j = i
          · subst hji; rw [hpi, hsi]; omega
          · exact (h1 j hj).2 (by omega)
    · intro j hj
      simp only
      by_cases hjb : j = b - i
      · subst hjb; simp only [upd_self]; exact ⟨hm0, trivial⟩
      · simp only [upd_ne _ _ _ _ hjb]; exact h2 j hj
    · intro j hji hjb
      simp only [upd_ne _ _ _ _ hjb]
    · intro hne
      simp only [upd_self, upd_ne _ _ _ _ hne]
      rw [hsi, show max (prec i) (prec (b - i) + sh) = prec i by omega, hpow]
      obtain ⟨q, hq⟩ := Int.dvd_of_emod_eq_zero hdiv
      rw [hq, Int.mul_ediv_cancel_left _ (by positivity)]
      have hcpi : st.cp i = ε * (p : ℤ) ^ sh * q := by
        linear_combination ε * hq - st.cp i * hεε
      rw [hcpi, mul_assoc, mul_assoc]
      apply Int.ModEq.mul_left
      exact Int.ModEq.mul_left' (Int.mod_modEq _ _).symm
    · right
      simp only [upd_self, hsb]
      rw [show max (prec (b - i)) (prec i - sh) = prec i - sh by omega]
  · rename_i hge
    have hm0 : 0 ≤ prec (b - i) + sh := by omega
    rw [upd_self, powerZZ_ok _ _ hm0, Res.bind_ok] at h
    cases h
    have hne : b - i ≠ i := by
      intro h
      have h0 : sh = 0 := by rw [hsh, halfWeight, show b - 2 * i = 0 by omega]; simp
      rw [h, h0] at hge
      simp at hge
    refine ⟨?_, ?_, ?_, ?_, ?_⟩
    · intro j hj
      simp only
      refine ⟨fun hh => ?_, fun hh => ?_⟩
      · rw [upd_ne _ _ _ _ (by omega)]; exact (h1 j hj).1 (by omega)
      · by_cases hji : j = i
        · subst hji
          rw [upd_self, hsi]; omega
        · rw [upd_ne _ _ _ _ hji]
          by_cases hjb : j = b - i
          · subst hjb; rw [hpb, hsb]; omega
          · exact (h1 j hj).2 (by omega)
    · intro j hj
      simp only
      by_cases hji : j = i
      · subst hji; simp only [upd_self]; exact ⟨hm0, trivial⟩
      · simp only [upd_ne _ _ _ _ hji]; exact h2 j hj
    · intro j hji hjb
      simp only [upd_ne _ _ _ _ hji]
    · intro _
      simp only [upd_self, upd_ne _ _ _ _ hne]
      rw [hsi, show max (prec i) (prec (b - i) + sh) = prec (b - i) + sh by omega]
      refine (Int.mod_modEq _ _).trans ?_
      rw [show ε * st.cp (b - i) * (p : ℤ) ^ sh = ε * (p : ℤ) ^ sh * st.cp (b - i) by ring]
    · left
      simp only [upd_ne _ _ _ _ hne]

theorem symLoop_facts (p b dim : Nat) (hb : 0 < b) (hp : 0 < p) (ε : ℤ) (hε : ε = 1 ∨ ε = -1)
    (prec : Nat → Int) (st st' : FrobSt) (h : forRange (b / 2 + 1) st (symStep p b dim ε) = .ok st')
    (h1 : st.prec = prec)
    (h2 : ∀ j, j ≤ b → 0 ≤ st.prec j ∧ st.md j = (p : Int) ^ (st.prec j).toNat)
    (h4 : st.cp 0 = ε * (p : ℤ) ^ halfWeight b dim 0) (h5 : st.cp b = 1) :
      (∀ j, j ≤ b → st'.prec j = sharedPrec b dim prec j) ∧
      (∀ j, j ≤ b → 0 ≤ st'.prec j ∧ st'.md j = (p : Int) ^ (st'.prec j).toNat) ∧
      (∀ j, 2 * j < b → st'.cp j ≡ ε * (p : ℤ) ^ halfWeight b dim j * st'.cp (b - j)
        [ZMOD (p : ℤ) ^ (sharedPrec b dim prec j).toNat]) ∧
      (1 < (p : Int) ^ (sharedPrec b dim prec b).toNat → st'.cp b = 1) := by
  have hεε : ε * ε = 1 := by rcases hε with rfl | rfl <;> norm_num
  have hs := forRange_ok_inv (n := b / 2 + 1)
    (fun i (st : FrobSt) => (∀ j, j ≤ b → (i ≤ j ∧ j ≤ b - i → st.prec j = prec j) ∧
        (j < i ∨ b - i < j → st.prec j = sharedPrec b dim prec j)) ∧
      (∀ j, j ≤ b → 0 ≤ st.prec j ∧ st.md j = (p : Int) ^ (st.prec j).toNat) ∧
      (∀ j, j < i → 2 * j < b → st.cp j ≡ ε * (p : ℤ) ^ halfWeight b dim j * st.cp (b - j)
        [ZMOD (p : ℤ) ^ (sharedPrec b dim prec j).toNat]) ∧
      (1 < (p : Int) ^ (sharedPrec b dim prec b).toNat → st.cp b = 1) ∧
      (i = 0 → st.cp 0 = ε * (p : ℤ) ^ halfWeight b dim 0))
    ⟨fun j hj => ⟨fun _ => by rw [h1], fun h => by omega⟩, h2, fun j hj => by omega, fun _ => h5,
      fun _ => h4⟩
    (by
      rintro i st st' hi ⟨g1, g2, g3, g4, g5⟩ he
      obtain ⟨a1, a2, a3, a4, a5⟩ := symStep_facts p b dim hp ε hε prec i (by omega) st st' he g1 g2
      refine ⟨a1, a2, ?_, ?_, by omega⟩
      · intro j hj hjb
        by_cases hji : j = i
        · subst hji; exact a4 (by omega)
        · rw [a3 j hji (by omega), a3 (b - j) (by omega) (by omega)]
          exact g3 j (by omega) hjb
      · intro hpb
        by_cases h0 : i = 0
        · subst h0
          rcases a5 with a5 | a5
          · rw [Nat.sub_zero] at a5; rw [a5, g4 hpb]
          · rw [Nat.sub_zero, g5 rfl] at a5
            rw [a5]
            have : ε * (ε * (p : ℤ) ^ halfWeight b dim 0) = (p : ℤ) ^ halfWeight b dim 0 := by
              linear_combination ((p : ℤ) ^ halfWeight b dim 0) * hεε
            rw [this, Int.ediv_self (by positivity)]
            exact Int.emod_eq_of_lt (by norm_num) hpb
        · rw [a3 b (by omega) (by omega), g4 hpb]) h
  exact ⟨fun j hj => (hs.1 j hj).2 (by omega), hs.2.1, fun j hj => hs.2.2.1 j (by omega) hj,
    hs.2.2.2.1⟩

theorem liftStep_facts (p b dim : Nat) (md : Nat → Int) (k : Nat) (hk : 1 ≤ k)
    (e s cp : Nat → Int) (r : (Nat → Int) × (Nat → Int) × (Nat → Int))
    (h : liftStep p b dim md k (e, s, cp) = .ok r) :
    (∀ j, j ≠ k → r.1 j = e j) ∧ (∀ j, j ≠ b - k → r.2.2 j = cp j) ∧
    ∃ x, x ≡ e k [ZMOD md (b - k)] ∧ r.2.2 (b - k) = (-1) ^ k * x := by
  unfold liftStep at h
  simp only at h
  obtain ⟨_, hc, h⟩ := Res.bind_eq_ok.1 h
  have hdiv := of_decide_eq_true (check_eq_ok.1 hc)
  cases h
  refine ⟨fun j hj => upd_ne _ _ _ _ hj, fun j hj => upd_ne _ _ _ _ hj, _, ?_, by
    simp only [upd_self]; rw [neg_one_pow_ite]⟩
  obtain ⟨q, hq⟩ := Int.dvd_of_emod_eq_zero hdiv
  rw [hq, Int.mul_ediv_cancel_left _ (by omega)]
  set sum := sumLoop (k - 1)
    (fun j => (if (j + 1) % 2 = 1 then (1 : ℤ) else -1) * e (k - (j + 1)) * s (j + 1)) with hsum
  set N : ℤ := (k : ℤ) * md (b - k) with hN
  set x0 : ℤ := (if k % 2 = 0 then (1 : ℤ) else -1) * (sum - k * e k) with hx0
  -- the adjusted value is congruent to the original one
  have hadj : ∀ B : ℤ, (if (x0 % N) ^ 2 > B then -((-(x0 % N)) % N) else x0 % N) ≡ x0 [ZMOD N] := by
    intro B
    split
    · have h1 : -(x0 % N) % N ≡ -(x0 % N) [ZMOD N] := Int.mod_modEq _ _
      have h2 := h1.neg
      rw [neg_neg] at h2
      exact h2.trans (Int.mod_modEq _ _)
    · exact Int.mod_modEq _ _
  have key := hadj ((b : ℤ) * b * (p : ℤ) ^ (dim * k))
  set y := (if (x0 % N) ^ 2 > (b : ℤ) * b * (p : ℤ) ^ (dim * k) then -((-(x0 % N)) % N) else x0 % N)
    with hy
  have hsq : ((-1 : ℤ)) ^ k * (-1) ^ k = 1 := by rw [← mul_pow]; simp
  have hx0' : x0 = (-1) ^ k * (sum - k * e k) := by
    rw [hx0]
    have := neg_one_pow_ite k (1 : ℤ)
    rw [this, mul_one]
  have hq' : (k : ℤ) * q = sum - (-1) ^ k * y := by
    rw [← hq]
    have : (if k % 2 = 0 then -y else y) = -((-1) ^ k * y) := by
      rw [← neg_one_pow_ite]; split <;> simp
    rw [this]; ring
  have hmod : (k : ℤ) * q ≡ (k : ℤ) * e k [ZMOD N] := by
    have h1 : sum - (-1) ^ k * y ≡ sum - (-1) ^ k * x0 [ZMOD N] :=
      Int.ModEq.sub_left _ (key.mul_left _)
    rw [hq']
    refine h1.trans ?_
    have : sum - (-1) ^ k * x0 = k * e k := by
      rw [hx0']; linear_combination (k * e k - sum) * hsq
    rw [this]
  exact Int.ModEq.mul_left_cancel' (by omega) hmod

end Verif
