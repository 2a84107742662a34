import Mathlib.Algebra.MvPolynomial.Eval
import Verif.Spec.Vec

/-!
Specification: the polynomial denoted by a list of exponent vectors with coefficients.
-/

namespace Verif.Spec

open MvPolynomial

/-- The exponent of variable `i` in the exponent vector `k`. -/
noncomputable def expo (n : Nat) (k : List Int) : Fin n →₀ ℕ :=
  Finsupp.equivFunOnFinite.symm (fun i => (k.getD i 0).toNat)

/-- The polynomial in `n` variables with the listed terms. -/
noncomputable def toPoly {R : Type} [CommSemiring R] (n : Nat) (m : List (List Int × R)) :
    MvPolynomial (Fin n) R :=
  (m.map (fun e => monomial (expo n e.1) e.2)).sum

/-- A well-formed polynomial map: exponent vectors of length `n` with non-negative entries, in
strictly increasing order. -/
def WFPoly {R : Type} (n : Nat) (m : List (List Int × R)) : Prop :=
  (∀ e ∈ m, e.1.length = n ∧ NonNeg e.1) ∧ (m.map Prod.fst).Pairwise LexLt

/-- The linear substitution `x_i ↦ Σ_j M i j x_j`. -/
noncomputable def linSubst {R : Type} [CommRing R] {n : Nat} (M : Fin n → Fin n → R) :
    MvPolynomial (Fin n) R →ₐ[R] MvPolynomial (Fin n) R :=
  aeval (fun i => ∑ j, C (M i j) * X j)

end Verif.Spec
