import Verif.Lemmas.SelfTest
import Verif.Props.Paths
import Verif.Props.ND

/-!
Property C63: the self tests of the reductions.
-/

namespace Verif

open Spec

variable {p N : Nat} [Fact p.Prime]

theorem degree_unit {d : Nat} (h : d % p ≠ 0) : IsUnit ((d : Nat) : ZMod (p ^ N)) := by
  rw [ZMod.isUnit_iff_coprime]
  apply Nat.Coprime.pow_right
  rw [Nat.coprime_comm, Nat.Prime.coprime_iff_not_dvd Fact.out]
  intro hd
  exact h (Nat.mod_eq_zero_of_dvd hd)

/-- **C63 (test_monomial_to_basis_J).**  For every object built by the constructor and every bound `K` the test returns
`true`, as long as the factorials `(k+K-1)!` it computes for the pole orders `k` of the basis fit into `int64_t`; otherwise
it overflows. -/
theorem C63_test_J (hN : 1 ≤ N) (la : LinAlg (ZMod p)) (hla : LinAlgOK la) (flint : Bool)
    (precision : ℕ) (hprec : N ≤ precision) {n d : ℕ} {f : MonMap (ZMod (p ^ N))} {D : DR (ZMod (p ^ N))}
    (hC : Constructed (padicSolver p N la flint precision) p f n d D) (hn : 1 ≤ n) (K : Nat) :
    selfTestJ (padicSolver p N la flint precision) D K =
      if (∀ t ∈ D.basis, poleOrder n d t + K ≤ 21) then .ok true else .error .ub := by
  obtain ⟨rfl, rfl, hI⟩ := hC.init
  have := nontrivial_pow (p := p) hN
  exact selfTest_eq (fun u hu hpos m hm => monomialToBasisJ_ok hC.solver hI.ok hI.top hI.basis hn hu hpos m hm) hI.ok
    (degree_unit hI.pd) hI.basis.pole (basis_indep hN hla hprec hI) K

/-- **C63 (test_monomial_to_basis_ND).** -/
theorem C63_test_ND (hN : 1 ≤ N) (la : LinAlg (ZMod p)) (hla : LinAlgOK la) (flint : Bool)
    (precision : ℕ) (hprec : N ≤ precision) {n d : ℕ} {f : MonMap (ZMod (p ^ N))} {D : ND (ZMod (p ^ N))}
    (hC : ConstructedND (padicSolver p N la flint precision) p f n d D) (hn : 1 ≤ n) (K : Nat) :
    selfTestND (padicSolver p N la flint precision) D K =
      if (∀ t ∈ D.basis, poleOrder n d t + K ≤ 21) then .ok true else .error .ub := by
  obtain ⟨rfl, rfl, hI⟩ := hC.init
  have hI0 := hI.base
  have := nontrivial_pow (p := p) hN
  exact selfTest_eq (fun u hu hpos m hm =>
      monomialToBasisND_ok hC.solver (hI.nd hn) hI0.top hI0.basis hI.blocks hI.block hu hpos m hm) hI0.ok
    (degree_unit hI0.pd) hI0.basis.pole (basis_indep hN hla hprec hI0) K

/-- **C63 (range).**  The pole orders are at most `n`: for `n + K <= 21` both tests return `true`. -/
theorem C63_in_range (hN : 1 ≤ N) (la : LinAlg (ZMod p)) (hla : LinAlgOK la) (flint : Bool)
    (precision : ℕ) (hprec : N ≤ precision) {n d : ℕ} {f : MonMap (ZMod (p ^ N))} {D : ND (ZMod (p ^ N))}
    (hC : ConstructedND (padicSolver p N la flint precision) p f n d D) (hn : 1 ≤ n) (K : Nat) (hK : n + K ≤ 21) :
    selfTestJ (padicSolver p N la flint precision) D.toDR K = .ok true ∧
    selfTestND (padicSolver p N la flint precision) D K = .ok true := by
  have hk : ∀ t ∈ D.basis, poleOrder n d t + K ≤ 21 := by
    obtain ⟨rfl, rfl, hI⟩ := hC.init
    intro t ht
    obtain ⟨k, h1, h2, h3⟩ := hI.base.basis.pole t ht
    rw [poleOrder_eq (by have := hI.base.ok.hd; omega) h3]
    omega
  exact ⟨by rw [C63_test_J hN la hla flint precision hprec (C45_base_ND hC) hn K, if_pos hk],
    by rw [C63_test_ND hN la hla flint precision hprec hC hn K, if_pos hk]⟩

local instance selfTestPrime : Fact (Nat.Prime 5) := ⟨by norm_num⟩

/-- C63: `fact *= k` overflows for `K = 21` as soon as the basis is not empty; the elliptic curve modulo 25. -/
theorem C63_overflow_wrong : ∃ la : LinAlg (ZMod 5), LinAlgOK la ∧
    ∃ D, Constructed (padicSolver 5 2 la true 2) 5 exCurve 2 3 D ∧
      selfTestJ (padicSolver 5 2 la true 2) D 21 = .error .ub ∧ selfTestJ (padicSolver 5 2 la true 2) D 19 = .ok true := by
  obtain ⟨la, hla⟩ := exists_linAlg (ZMod 5)
  obtain ⟨D, h, hb⟩ := exCurve_padic la hla true
  refine ⟨la, hla, D, h, ?_, ?_⟩
  · rw [C63_test_J (p := 5) (N := 2) (by norm_num) la hla true 2 (le_refl 2) h (by norm_num) 21, if_neg]
    rw [hb]
    decide
  · rw [C63_test_J (p := 5) (N := 2) (by norm_num) la hla true 2 (le_refl 2) h (by norm_num) 19, if_pos]
    rw [hb]
    decide

/-- The cubic modulo 25 meets the hypotheses for the non-degenerate class. -/
example : ∃ la : LinAlg (ZMod 5), LinAlgOK la ∧ ∃ D, ConstructedND (padicSolver 5 2 la true 2) 5 exCubic 1 3 D := by
  obtain ⟨la, hla⟩ := exists_linAlg (ZMod 5)
  obtain ⟨D, h, -⟩ := exCubic_padicND la hla true
  exact ⟨la, hla, D, h⟩

end Verif
