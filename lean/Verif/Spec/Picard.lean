import Mathlib.Analysis.SpecialFunctions.Log.Base
import Mathlib.Algebra.Polynomial.Roots
import Mathlib.Algebra.Polynomial.FieldDivision
import Mathlib.Analysis.Complex.Basic

/-!
Specification for C43.
-/

namespace Verif.Spec

open Polynomial

/-- What is asked of the floating point test `k/(log(k)/log(2)+1) <= d`: it is exact for `k = 1, 2` (where the
logarithms are 0 and 1 exactly), right whenever the two sides differ by more than one percent, and monotone
in `d`. -/
structure CmpOK (cmp : Nat → Nat → Bool) : Prop where
  one : ∀ d, cmp 1 d = true ↔ 1 ≤ d
  two : ∀ d, cmp 2 d = true ↔ 1 ≤ d
  low : ∀ k d : Nat, 3 ≤ k → 101 * (k : ℝ) ≤ 100 * (d * (Real.logb 2 k + 1)) → cmp k d = true
  high : ∀ k d : Nat, 3 ≤ k → 101 * (d * (Real.logb 2 k + 1)) ≤ 100 * (k : ℝ) → cmp k d = false
  mono : ∀ k d d' : Nat, d ≤ d' → cmp k d = true → cmp k d' = true

/-- A factorisation over the integers, as FLINT returns it: irreducible factors of positive degree with
positive leading coefficient, and a constant. -/
structure FactorOK (factor : ℤ[X] → List (ℤ[X] × Nat)) : Prop where
  prod : ∀ f, f ≠ 0 → ∃ c : ℤ, f = C c * ((factor f).map (fun g => g.1 ^ g.2)).prod
  irred : ∀ f, ∀ g ∈ factor f, Irreducible g.1 ∧ 0 < g.1.natDegree ∧ 0 < g.1.leadingCoeff

/-- A complex number some positive power of which is 1. -/
def IsRootOfUnity (z : ℂ) : Prop := ∃ m : Nat, 0 < m ∧ z ^ m = 1

/-- The polynomial with the given coefficients, the constant one first. -/
noncomputable def polyOf (cp : List Int) : ℤ[X] := ∑ i ∈ Finset.range cp.length, C (cp.getD i 0) * X ^ i

open Classical in
/-- Number of complex roots of `P`, with multiplicity, that are `p` times a root of unity. -/
noncomputable def unitRoots (P : ℤ[X]) (p : Nat) : Nat :=
  ((P.map (Int.castRingHom ℂ)).roots.filter (fun z => IsRootOfUnity (z / p))).card

end Verif.Spec
