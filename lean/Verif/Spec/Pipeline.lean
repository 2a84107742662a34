import Verif.Spec.Scaled

/-!
What the matrix computed by `frob_matrix_J` and `frob_matrix_ND` should be.
-/

namespace Verif.Spec

open MvPolynomial

/-- `Φ` is the matrix, in the basis `basis`, of the `p`-power Frobenius map (times `p^(n-1)`, truncated): for a basis element
`x^b` of pole order `m`, with `N = N_m` terms of the series asked for, column `i` holds the coordinates of the class of
`p^(n-1) Σ_{j<N} D_{j,m} f^j(x^p) x^(p(b+1)-1) Ω / f^(p(m+j))`.  When no terms are asked for the column is zero. -/
def IsFrobenius {R : Type} [CommRing R] {n : ℕ} (f : MvPolynomial (Fin (n + 1)) R) (d p : ℕ) (basis : List (List ℤ))
    (N : List ℤ) (Φ : ℕ → ℕ → R) : Prop :=
  ∀ (i : ℕ) (b : List ℤ), basis[i]? = some b → ∃ Ni : ℤ, N[poleOrder n d b - 1]? = some Ni ∧
    (Ni ≤ 0 → ∀ k, k < basis.length → Φ k i = 0) ∧
    (0 < Ni → FrobColumn f d p basis (poleOrder n d b) Ni.toNat (ev n b) (fun k => Φ k i))

/-- With `N` terms no coefficient `D_{j,m}`, `m <= n`, leaves the range of `int64_t`. -/
def TermsFit (n : ℕ) (N : ℤ) : Prop :=
  ∀ m j : ℕ, 1 ≤ m → m ≤ n → (j : ℤ) < N → (djm m N.toNat j).natAbs < 2 ^ 63

end Verif.Spec
