import Mathlib.NumberTheory.Padics.PadicVal.Basic
import Verif.Spec.Frob

/-!
Cohomology classes without denominators.

Over `Z/p^K` a form such as `(p-1)! ... Ω / f^(p+1)` cannot be divided by `p!` without losing digits.  In this file a homogeneous
polynomial `G` of degree `k d - (n+1)` stands for the form `(k-1)! G Ω / f^k`.  The Griffiths relation for `F / f^m`, times
`(m-1)!`, then reads `F ∂_i f ~ ∂_i F`, without any coefficient; multiplying by a factorial is never needed.
`C47_column_class` relates this to the forms of `Verif/Spec/DeRham.lean`.
-/

namespace Verif.Spec

open MvPolynomial

variable {R : Type} [CommRing R]

/-- The relations `F ∂_i f ~ ∂_i F`, for `F` homogeneous of degree `m d - n`, `m >= 1`. -/
noncomputable def scaledExact {n : ℕ} (f : MvPolynomial (Fin (n + 1)) R) (d : ℕ) :
    Submodule R (MvPolynomial (Fin (n + 1)) R) :=
  Submodule.span R {w | ∃ (m e : ℕ) (i : Fin (n + 1)) (F : MvPolynomial (Fin (n + 1)) R),
    1 ≤ m ∧ e + n = m * d ∧ F.IsHomogeneous e ∧ w = F * pderiv i f - pderiv i F}

/-- The factorial belonging to the highest pole of the series. -/
def frobFact (p m N : ℕ) : ℕ := (p * (m + N - 1) - 1).factorial

/-- The series `Σ_{j<N} D_{j,m} f^j(x^p) x^(p(b+1)-1) Ω / f^(p(m+j))` times `frobFact p m N`: the term with pole
order `p(m+j)` gets the integer `frobFact / (p(m+j)-1)!`. -/
noncomputable def scaledSeries {n : ℕ} (f : MvPolynomial (Fin (n + 1)) R) (p m N : ℕ) (b : Fin (n + 1) → ℤ) :
    MvPolynomial (Fin (n + 1)) R :=
  ∑ j ∈ Finset.range N, (((djm m N j : ℤ) : R) * ((frobFact p m N / (p * (m + j) - 1).factorial : ℕ) : R)) •
    (expand p (f ^ j) * xpow R (fun i => p * (b i + 1) - 1))

/-- `c` are coordinates of the series times `frobFact p m N` in the monomials of `basis`. -/
def SeriesCoords {n : ℕ} (f : MvPolynomial (Fin (n + 1)) R) (d p : ℕ) (basis : List (List ℤ)) (m N : ℕ)
    (b : Fin (n + 1) → ℤ) (c : ℕ → R) : Prop :=
  scaledSeries f p m N b - combo n basis c ∈ scaledExact f d

/-- `F` is the column of the basis element `b` of pole order `m`, with `N` terms of the series: the coordinates of
`p^(n-1) Σ_{j<N} D_{j,m} f^j(x^p) x^(p(b+1)-1) Ω / f^(p(m+j))` in the basis of forms `x^(b_k) Ω / f^(m_k)`.  With
`frobFact = u p^v`, `p` not dividing `u`, this says `u p^v F_k = p^(n-1) (m_k-1)! c_k`; it is stated with the common power of
`p` taken out, so that `F` is determined by it up to multiples of `p^(K-(v-(n-1)))`, and completely when `v < n`. -/
def FrobColumn {n : ℕ} (f : MvPolynomial (Fin (n + 1)) R) (d p : ℕ) (basis : List (List ℤ)) (m N : ℕ)
    (b : Fin (n + 1) → ℤ) (F : ℕ → R) : Prop :=
  ∃ c : ℕ → R, SeriesCoords f d p basis m N b c ∧ ∀ k, k < basis.length →
    ((frobFact p m N / p ^ padicValNat p (frobFact p m N) * p ^ (padicValNat p (frobFact p m N) - (n - 1)) : ℕ) : R) * F k =
      ((p ^ (n - 1 - padicValNat p (frobFact p m N)) * (poleOrder n d (basis.getD k []) - 1).factorial : ℕ) : R) * c k

end Verif.Spec
