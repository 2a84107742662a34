import Mathlib.Data.Nat.Factorization.Basic
import Mathlib.RingTheory.Coprime.Lemmas
import Verif.Lemmas.Djm
import Verif.Lemmas.Tools
import Verif.Model.Frob

/-! Dividing out the factors at the end of the Frobenius functions. -/

namespace Verif

open Spec

theorem liftZ_cast {q : Nat} [NeZero q] (x : ZMod q) : ((liftZ x : Int) : ZMod q) = x := by
  simp [liftZ]

theorem frobScale_ok {p K n a : Nat} (hp : p.Prime) (hn : 1 ≤ n) (F : CVec (ZMod (p ^ K))) :
    (∀ F', frobScale p n a F = .ok F' → F'.len = F.len ∧
      ∀ i, i < F.len → ((a.factorial / p ^ padicValNat p a.factorial * p ^ (padicValNat p a.factorial - (n - 1)) : Nat) :
        ZMod (p ^ K)) * F'.e i = ((p ^ (n - 1 - padicValNat p a.factorial) : Nat) : ZMod (p ^ K)) * F.e i) ∧
    (¬ p ^ n ∣ a.factorial → ∃ F', frobScale p n a F = .ok F') ∧
    (∀ err, frobScale p n a F = .error err → err = .assertFail) := by
  have : NeZero (p ^ K) := ⟨pow_ne_zero _ hp.ne_zero⟩
  obtain ⟨v, t, ht, hf⟩ := Nat.exists_eq_pow_mul_and_not_dvd (Nat.factorial_ne_zero a) p hp.ne_one
  have hfact := Fact.mk hp
  have ht0 : t ≠ 0 := by rintro rfl; exact ht (dvd_zero p)
  have hv : padicValNat p a.factorial = v := by
    rw [hf, padicValNat.mul (pow_ne_zero _ hp.ne_zero) ht0, padicValNat.prime_pow,
      padicValNat.eq_zero_of_not_dvd ht, add_zero]
  have hdiv : a.factorial / p ^ v = t := by rw [hf, Nat.mul_div_cancel_left _ (pow_pos hp.pos _)]
  rw [hv, hdiv]
  have hpv : ((p : Int) ^ v) ≠ 0 := pow_ne_zero _ (by exact_mod_cast hp.ne_zero)
  have e0 : (factorialR a 1 : Int) = (p : Int) ^ v * t := by
    rw [factorialR_one, hf]; push_cast; rfl
  have e1 : (factorialR a 1 : Int) / (p : Int) ^ v = t := by rw [e0, Int.mul_ediv_cancel_left _ hpv]
  have e2 : (factorialR a 1 : Int) % (p : Int) ^ v = 0 := by rw [e0, Int.mul_emod_right]
  have hcop : Nat.Coprime t (p ^ K) := Nat.Coprime.pow_right _ ((Nat.Prime.coprime_iff_not_dvd hp).2 ht).symm
  have e3 : Int.gcd (t : Int) (p ^ K : Nat) = 1 := by rw [Int.gcd_natCast_natCast]; exact hcop
  have hunit : (t : ZMod (p ^ K)) * (t : ZMod (p ^ K))⁻¹ = 1 := ZMod.coe_mul_inv_eq_one t hcop
  have hbase : frobScale p n a F =
      if (v : Int) ≤ (n : Int) - 1 then
        .ok (CVec.mk' F.len (fun i => (CVec.mk' F.len (fun i => F.e i * ((t : Int) : ZMod (p ^ K))⁻¹)).e i *
          ((p ^ ((n : Int) - 1 - v).toNat : Nat) : ZMod (p ^ K))))
      else
        check ((List.range F.len).all (fun i => decide (liftZ ((CVec.mk' F.len (fun i => F.e i * ((t : Int) : ZMod (p ^ K))⁻¹)).e i)
          % (p : Int) ^ ((v : Int) - ((n : Int) - 1)).toNat = 0))) >>= fun _ =>
        .ok (CVec.mk' F.len (fun i => ((liftZ ((CVec.mk' F.len (fun i => F.e i * ((t : Int) : ZMod (p ^ K))⁻¹)).e i) /
          (p : Int) ^ ((v : Int) - ((n : Int) - 1)).toNat : Int) : ZMod (p ^ K)))) := by
    rw [frobScale, valuationOfFactorial_eq a p hp, hv, Res.bind_ok]
    simp only [Int.toNat_natCast]
    rw [decide_eq_true e2, check_true, Res.bind_ok]
    simp only [e1]
    rw [if_neg (by rw [e3]; simp)]
    split <;> rfl
  rw [hbase]
  have hcast : ((t : Int) : ZMod (p ^ K)) = (t : ZMod (p ^ K)) := by push_cast; rfl
  by_cases hle : (v : Int) ≤ (n : Int) - 1
  · rw [if_pos hle]
    refine ⟨?_, fun _ => ⟨_, rfl⟩, fun err h => by cases h⟩
    intro F' h
    obtain rfl := Except.ok.inj h
    refine ⟨rfl, fun i hi => ?_⟩
    simp only [CVec.mk', if_pos hi, hcast]
    rw [show ((n : Int) - 1 - v).toNat = n - 1 - v by omega, show v - (n - 1) = 0 by omega, pow_zero, mul_one]
    push_cast
    calc (t : ZMod (p ^ K)) * (F.e i * (t : ZMod (p ^ K))⁻¹ * (p : ZMod (p ^ K)) ^ (n - 1 - v))
        = ((t : ZMod (p ^ K)) * (t : ZMod (p ^ K))⁻¹) * ((p : ZMod (p ^ K)) ^ (n - 1 - v) * F.e i) := by ring
      _ = _ := by rw [hunit, one_mul]
  · rw [if_neg hle]
    obtain ⟨s, hs⟩ : ∃ s, v = n - 1 + s := ⟨v - (n - 1), by omega⟩
    rw [show ((v : Int) - ((n : Int) - 1)).toNat = s by omega]
    refine ⟨?_, fun h => ?_, ?_⟩
    · intro F' h
      rw [Res.bind_eq_ok] at h
      obtain ⟨_, hc, h⟩ := h
      rw [check_eq_ok, List.all_eq_true] at hc
      obtain rfl := Except.ok.inj h
      refine ⟨rfl, fun i hi => ?_⟩
      have hci := hc i (List.mem_range.2 hi)
      rw [decide_eq_true_eq] at hci
      simp only [CVec.mk', if_pos hi, hcast] at hci ⊢
      have h5 := Int.mul_ediv_cancel' (Int.dvd_of_emod_eq_zero hci)
      have h6 := congrArg (fun z : Int => (z : ZMod (p ^ K))) h5
      simp only [Int.cast_mul, Int.cast_pow, Int.cast_natCast, liftZ_cast] at h6
      rw [show v - (n - 1) = s by omega, show n - 1 - v = 0 by omega, pow_zero, Nat.cast_one, one_mul]
      push_cast
      rw [mul_assoc, h6,
        mul_comm (F.e i), ← mul_assoc (t : ZMod (p ^ K)), hunit, one_mul]
    · exact absurd (Dvd.intro_left _ (show t * p ^ (v - n) * p ^ n = a.factorial by
        rw [mul_assoc, ← pow_add, show v - n + n = v by omega, hf, mul_comm])) h
    · intro err h
      cases hb : (List.range F.len).all (fun i => decide (liftZ ((CVec.mk' F.len (fun i => F.e i * ((t : Int) : ZMod (p ^ K))⁻¹)).e i)
          % (p : Int) ^ s = 0)) with
      | true => rw [hb, check_true, Res.bind_ok] at h; cases h
      | false => rw [hb, check_false, Res.bind_error] at h; exact (Except.error.inj h).symm

end Verif
