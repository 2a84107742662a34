import Verif.Spec.Frob

/-!
The lift of Frobenius on forms.  The homomorphism `x_i ↦ x_i^p` (the identity on the coefficients, which are in `Z_p` or a quotient of it) takes
`x^b Ω / f^m` to `p^n x^(p(b+1)-1) Ω / f(x^p)^m`, since it takes `dx_i / x_i` to `p dx_i / x_i`.
-/

namespace Verif.Spec

open MvPolynomial

variable {R : Type} [CommRing R]

/-- The numerator of `ω = Σ_k G_k Ω / f^k` over the common denominator `f^e`, when no `k` exceeds `e`. -/
noncomputable def numer {n : ℕ} (f : MvPolynomial (Fin (n + 1)) R) (e : ℕ) (ω : Forms R n) : MvPolynomial (Fin (n + 1)) R :=
  ω.sum (fun k G => G * f ^ (e - k))

/-- `A Ω / f^e`, with `A` as above, is `x^(p(b+1)-1) Ω / f(x^p)^m` up to multiples of `q`: the difference of the cross products is
`q` times a polynomial. -/
def IsLiftUpTo {n : ℕ} (f : MvPolynomial (Fin (n + 1)) R) (p m : ℕ) (b : Fin (n + 1) → ℤ) (q : R) (e : ℕ) (ω : Forms R n) : Prop :=
  (∀ k ∈ ω.support, k ≤ e) ∧
  ∃ H, numer f e ω * expand p (f ^ m) - xpow R (fun i => p * (b i + 1) - 1) * f ^ e = C q * H

end Verif.Spec
