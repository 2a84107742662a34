import Verif.Spec.Digits
import Mathlib.NumberTheory.Padics.PadicIntegers

/-!
Specification for C77: the matrix computed, compared with the matrix over the `p`-adic integers it stands for.
-/

namespace Verif.Spec

/-- `Ψ` is a matrix over the `p`-adic integers whose columns of pole order `m` are divisible by `p^(n-m)`, and the integer matrix
`Φ` agrees with it in the digits that are kept when the working precision is `K` and `N` lists the numbers of terms by pole order
(C74); the columns for which no term is computed are zero. -/
structure Approximates (p n d K : ℕ) [Fact p.Prime] (basis : List IVec) (N : List ℤ)
    (Φ : Matrix (Fin basis.length) (Fin basis.length) ℤ) (Ψ : Matrix (Fin basis.length) (Fin basis.length) ℤ_[p]) : Prop where
  divisible : ∀ i j, (p : ℤ_[p]) ^ (n - poleOrder n d basis[j]) ∣ Ψ i j
  digits : ∀ i j, 0 < N.getD (poleOrder n d basis[j] - 1) 0 →
    (p : ℤ_[p]) ^ (K - digitsLost p n (poleOrder n d basis[j]) (N.getD (poleOrder n d basis[j] - 1) 0).toNat) ∣ (Φ i j : ℤ_[p]) - Ψ i j
  zero : ∀ i j, N.getD (poleOrder n d basis[j] - 1) 0 ≤ 0 → Φ i j = 0

end Verif.Spec
