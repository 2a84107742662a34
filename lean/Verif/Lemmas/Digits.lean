import Verif.Lemmas.FrobScale
import Verif.Lemmas.FrobNDMain
import Verif.Model.FrobND
import Verif.Spec.Digits

/-! The digits left by the exact division. -/

namespace Verif

open Spec

theorem frobScale_range {p K n a : Nat} (hp : p.Prime) (hn : 1 ≤ n) {F F' : CVec (ZMod (p ^ K))}
    (h : frobScale p n a F = .ok F') (i : Nat) (hi : i < F.len) :
    (F'.e i).val < p ^ (K - (padicValNat p a.factorial - (n - 1))) := by
  have : NeZero (p ^ K) := ⟨pow_ne_zero _ hp.ne_zero⟩
  rw [frobScale, valuationOfFactorial_eq a p hp, Res.bind_ok] at h
  simp only [Int.toNat_natCast] at h
  rw [Res.bind_eq_ok] at h
  obtain ⟨-, -, h⟩ := h
  split at h
  · cases h
  rename_i hg
  by_cases hle : (padicValNat p a.factorial : Int) ≤ (n : Int) - 1
  · rw [show padicValNat p a.factorial - (n - 1) = 0 by omega, Nat.sub_zero]
    exact ZMod.val_lt _
  · rw [if_neg hle, Res.bind_eq_ok] at h
    obtain ⟨_, hc, h⟩ := h
    rw [check_eq_ok, List.all_eq_true] at hc
    have hci := hc i (List.mem_range.2 hi)
    rw [decide_eq_true_eq] at hci
    obtain rfl := Except.ok.inj h
    simp only [CVec.mk', if_pos hi] at hci ⊢
    rw [show ((padicValNat p a.factorial : Int) - ((n : Int) - 1)).toNat = padicValNat p a.factorial - (n - 1) by omega] at hci ⊢
    generalize padicValNat p a.factorial - (n - 1) = s at hci ⊢
    generalize F.e i * _ = x at hci ⊢
    rw [liftZ] at hci ⊢
    have e1 : ((x.val : Int) / (p : Int) ^ s : Int) = ((x.val / p ^ s : Nat) : Int) := by push_cast; rfl
    have e2 : p ^ s ∣ x.val := by
      have := Int.dvd_of_emod_eq_zero hci
      exact_mod_cast this
    rw [e1, Int.cast_natCast]
    have hlt : x.val < p ^ K := ZMod.val_lt x
    have hq : x.val / p ^ s < p ^ (K - s) := by
      rw [Nat.div_lt_iff_lt_mul (pow_pos hp.pos _), ← pow_add]
      rcases le_or_gt s K with hs | hs
      · rwa [show K - s + s = K by omega]
      · exact lt_of_lt_of_le hlt (Nat.pow_le_pow_right hp.pos (by omega))
    rw [ZMod.val_natCast]
    exact lt_of_le_of_lt (Nat.mod_le _ _) hq

/-- The division is exact as soon as there are quotients. -/
theorem frobScale_returns {p K n a : Nat} (hp : p.Prime) (hn : 1 ≤ n) (F : CVec (ZMod (p ^ K)))
    (h : ∀ i, i < F.len → ∃ y : ZMod (p ^ K),
      ((a.factorial / p ^ padicValNat p a.factorial * p ^ (padicValNat p a.factorial - (n - 1)) : Nat) : ZMod (p ^ K)) * y =
        ((p ^ (n - 1 - padicValNat p a.factorial) : Nat) : ZMod (p ^ K)) * F.e i) :
    ∃ F', frobScale p n a F = .ok F' := by
  have hz : NeZero (p ^ K) := ⟨pow_ne_zero _ hp.ne_zero⟩
  have hfact := Fact.mk hp
  by_cases hlt : ¬ p ^ n ∣ a.factorial
  · exact (frobScale_ok hp hn F).2.1 hlt
  rw [not_not, padicValNat_dvd_iff_le (Nat.factorial_ne_zero _)] at hlt
  have hv := valuationOfFactorial_eq a p hp
  have e0 : (factorialR a 1 : Int) = (a.factorial : Int) := by rw [factorialR_one]
  have hdvd : p ^ padicValNat p a.factorial ∣ a.factorial := pow_padicValNat_dvd
  set t := a.factorial / p ^ padicValNat p a.factorial with ht
  have e1 : (factorialR a 1 : Int) / (p : Int) ^ padicValNat p a.factorial = t := by rw [e0, ht]; push_cast; rfl
  have e2 : (factorialR a 1 : Int) % (p : Int) ^ padicValNat p a.factorial = 0 := by
    rw [e0]
    exact Int.emod_eq_zero_of_dvd (by exact_mod_cast hdvd)
  have hcop : Nat.Coprime t (p ^ K) := by
    refine Nat.Coprime.pow_right _ ((Nat.Prime.coprime_iff_not_dvd hp).2 ?_).symm
    rw [ht, ← Nat.factorization_def _ hp]
    exact Nat.not_dvd_ordCompl hp (Nat.factorial_ne_zero a)
  have e3 : Int.gcd (t : Int) (p ^ K : Nat) = 1 := by rw [Int.gcd_natCast_natCast]; exact hcop
  have hunit : (t : ZMod (p ^ K)) * (t : ZMod (p ^ K))⁻¹ = 1 := ZMod.coe_mul_inv_eq_one t hcop
  rw [frobScale, hv, Res.bind_ok]
  simp only [Int.toNat_natCast]
  rw [decide_eq_true e2, check_true, Res.bind_ok]
  simp only [e1]
  rw [if_neg (by rw [e3]; simp), if_neg (by omega)]
  have hall : (List.range F.len).all (fun i => decide (liftZ ((CVec.mk' F.len (fun i => F.e i * ((t : Int) : ZMod (p ^ K))⁻¹)).e i)
      % (p : Int) ^ ((padicValNat p a.factorial : Int) - ((n : Int) - 1)).toNat = 0)) = true := by
    rw [List.all_eq_true]
    intro i hi
    rw [List.mem_range] at hi
    rw [decide_eq_true_eq]
    obtain ⟨y, hy⟩ := h i hi
    simp only [CVec.mk', if_pos hi]
    rw [show ((padicValNat p a.factorial : Int) - ((n : Int) - 1)).toNat = padicValNat p a.factorial - (n - 1) by omega]
    rw [show n - 1 - padicValNat p a.factorial = 0 by omega, pow_zero, Nat.cast_one, one_mul] at hy
    have e4 : F.e i * ((t : Int) : ZMod (p ^ K))⁻¹ = ((p ^ (padicValNat p a.factorial - (n - 1)) * y.val : Nat) : ZMod (p ^ K)) := by
      rw [← hy]
      push_cast
      rw [ZMod.natCast_zmod_val]
      calc (t : ZMod (p ^ K)) * (p : ZMod (p ^ K)) ^ (padicValNat p a.factorial - (n - 1)) * y * (t : ZMod (p ^ K))⁻¹
          = ((t : ZMod (p ^ K)) * (t : ZMod (p ^ K))⁻¹) * ((p : ZMod (p ^ K)) ^ (padicValNat p a.factorial - (n - 1)) * y) := by ring
        _ = _ := by rw [hunit, one_mul]
    rw [e4, liftZ, ZMod.val_natCast]
    generalize padicValNat p a.factorial - (n - 1) = s
    generalize y.val = w
    have : p ^ s ∣ p ^ s * w % p ^ K := by
      rcases le_or_gt s K with hs | hs
      · exact (Nat.dvd_mod_iff (pow_dvd_pow p hs)).2 (Dvd.intro _ rfl)
      · have : p ^ K ∣ p ^ s * w := Dvd.dvd.mul_right (pow_dvd_pow p hs.le) _
        rw [Nat.mod_eq_zero_of_dvd this]
        exact dvd_zero _
    exact Int.emod_eq_zero_of_dvd (by exact_mod_cast this)
  rw [hall, check_true, Res.bind_ok]
  exact ⟨_, rfl⟩

/-- Two elements with the digits left are equal if their multiples are. -/
theorem eq_of_digits {p K s : Nat} (hp : p.Prime) {x y : ZMod (p ^ K)} (hx : x.val < p ^ (K - s)) (hy : y.val < p ^ (K - s))
    (h : (p : ZMod (p ^ K)) ^ s * x = (p : ZMod (p ^ K)) ^ s * y) : x = y := by
  have : NeZero (p ^ K) := ⟨pow_ne_zero _ hp.ne_zero⟩
  apply ZMod.val_injective
  rcases le_or_gt K s with hs | hs
  · rw [show K - s = 0 by omega, pow_zero] at hx hy
    omega
  rw [← ZMod.natCast_zmod_val x, ← ZMod.natCast_zmod_val y] at h
  have h' : ((p ^ s * x.val : Nat) : ZMod (p ^ K)) = ((p ^ s * y.val : Nat) : ZMod (p ^ K)) := by
    push_cast; exact h
  rw [ZMod.natCast_eq_natCast_iff'] at h'
  have hb : ∀ z : Nat, z < p ^ (K - s) → p ^ s * z < p ^ K := by
    intro z hz
    calc p ^ s * z < p ^ s * p ^ (K - s) := Nat.mul_lt_mul_of_pos_left hz (pow_pos hp.pos _)
      _ = p ^ K := by rw [← pow_add]; congr 1; omega
  rw [Nat.mod_eq_of_lt (hb _ hx), Nat.mod_eq_of_lt (hb _ hy)] at h'
  exact Nat.eq_of_mul_eq_mul_left (pow_pos hp.pos _) h'

/-- The columns, whatever the variant. -/
theorem frobFun_range {p K : Nat} (hp : p.Prime) {var : FrobVar (ZMod (p ^ K))} {solve : Solver (ZMod (p ^ K))}
    {D : DR (ZMod (p ^ K))} (hn : 1 ≤ D.n) {T : List (MonMap (ZMod (p ^ K)))} {coord N : Nat} {ei : IVec}
    (hc : D.basis[coord]? = some ei) {r : CVec (ZMod (p ^ K)) × List (MonMap (ZMod (p ^ K)))}
    (h : frobFun var solve D p T coord N = .ok r) (i : Nat) (hi : i < r.1.len) :
    (r.1.e i).val < p ^ (K - digitsLost p D.n (poleOrder D.n D.d ei) N) := by
  rw [frobFun, Res.bind_eq_ok] at h
  obtain ⟨-, -, h⟩ := h
  rw [aget, hc, Res.bind_ok, Res.bind_eq_ok] at h
  obtain ⟨T', -, h⟩ := h
  rw [Res.bind_eq_ok] at h
  obtain ⟨F, -, h⟩ := h
  simp only [Res.bind_eq_ok] at h
  obtain ⟨F', h1, h2⟩ := h
  obtain rfl := Except.ok.inj h2
  have e : ((sumVec ei + D.n + 1) / D.d).toNat = poleOrder D.n D.d ei := by rw [sumVec_eq_sum]; rfl
  rw [e] at h1
  have hl := ((frobScale_ok hp hn F).1 F' h1).1
  exact frobScale_range hp hn h1 i (hl ▸ hi)

theorem frobFunND_range {p K : Nat} (hp : p.Prime) {var : NDVar (ZMod (p ^ K))} {solve : Solver (ZMod (p ^ K))}
    {N : ND (ZMod (p ^ K))} (hn : 1 ≤ N.n) {T : List (MonMap (ZMod (p ^ K)))} {coord prec : Nat} {ei : IVec}
    (hc : N.basis[coord]? = some ei) {r : CVec (ZMod (p ^ K)) × List (MonMap (ZMod (p ^ K)))}
    (h : frobFunND var frobScale solve N p T coord prec = .ok r) (i : Nat) (hi : i < r.1.len) :
    (r.1.e i).val < p ^ (K - digitsLost p N.n (poleOrder N.n N.d ei) prec) := by
  rw [frobFunND, Res.bind_eq_ok] at h
  obtain ⟨-, -, h⟩ := h
  rw [aget, hc, Res.bind_ok, Res.bind_eq_ok] at h
  obtain ⟨T', -, h⟩ := h
  split at h
  · cases h
  simp only [Res.bind_eq_ok] at h
  obtain ⟨F, -, F', h1, h2⟩ := h
  obtain rfl := Except.ok.inj h2
  have e : ((sumVec ei + N.n + 1) / N.d).toNat = poleOrder N.n N.d ei := by rw [sumVec_eq_sum]; rfl
  rw [e] at h1
  have hl := ((frobScale_ok hp hn F).1 F' h1).1
  exact frobScale_range hp hn h1 i (hl ▸ hi)

end Verif
