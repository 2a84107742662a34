import Mathlib.Algebra.MvPolynomial.Expand
import Verif.Spec.DeRham

/-!
Specification of the Frobenius computation.

`Frob(x^b Ω / f^m)` is `p^n` times the class of the series `Σ_j C(-m, j) (f^σ(x^p) - f^p)^j ... / f^(p(m+j))`;
cut after `N` terms and expanded, it is the finite sum `frobSeries` below (property C32 relates the
coefficients to the power series `X^(-m)` at `X = 1`).
-/

namespace Verif.Spec

open MvPolynomial

/-- The coefficient of `X^j` in the order-`N` truncation of `X^(-m)` at `X = 1`. -/
def djm (m N j : ℕ) : ℤ :=
  (-1) ^ j * ∑ i ∈ Finset.Ico j N, (((m + i - 1).choose (m - 1) * i.choose j : ℕ) : ℤ)

/-- The sum `Σ_{j<N} D_{j,m} f^j(x^p) x^(p(b+1)-1) Ω / f^(p(m+j))`. -/
noncomputable def frobSeries {R : Type} [CommRing R] {n : ℕ} (f : MvPolynomial (Fin (n + 1)) R) (p m N : ℕ)
    (b : Fin (n + 1) → ℤ) : Forms R n :=
  ∑ j ∈ Finset.range N, ((djm m N j : ℤ) : R) •
    form (p * (m + j)) (expand p (f ^ j) * xpow R (fun i => p * (b i + 1) - 1))

end Verif.Spec
