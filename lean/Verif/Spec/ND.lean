import Verif.Spec.DeRham
import Verif.Model.ND

/-!
Specification for `de_Rham_non_degenerate_local`: what the constructor establishes.
-/

namespace Verif.Spec

open MvPolynomial

variable {R : Type} [CommRing R]

/-- The non-degenerate object is well formed: it extends a well formed object, its basis is that of the
cokernels in degrees `0, d, ..., nd`, without repetitions and starting with the monomial 1, and all
monomials of degree `(d-1)(n+1)+1` are combinations of the `x_i ∂_i f`. -/
structure NDOk (solve : Solver R) (N : ND R) : Prop where
  dr : DROk N.toDR
  pos : 1 ≤ N.n
  dict : N.ndDict = buildDict N.ndBasis
  nodup : N.ndBasis.Nodup
  deg : ∀ t ∈ N.ndBasis, ∃ l : Nat, l ≤ N.n ∧ IsTuple (N.n + 1) ((l : Int) * N.d) t
  head : 0 < N.ndBasis.length ∧ N.ndBasis.getD 0 [] = List.replicate (N.n + 1) 0
  block : ∀ k : Nat, k ≤ N.n → ∀ B U L, solveND solve N.toDR ((k : Int) * N.d) = .ok (B, U) →
    N.list ((k : Int) * N.d) = .ok L → ∀ b ∈ B, L.getD b [] ∈ N.ndBasis
  top : ∃ U, solveND solve N.toDR N.topND = .ok ([], U)

/-- `N` is an object returned by the constructor of the non-degenerate class for a homogeneous `f` of
degree `d` in `n+1` variables, with a solver meeting its contract and monomial lists of length below
`2^63`. -/
structure ConstructedND (solve : Solver R) (p : Nat) (f : MonMap R) (n d : Nat) (N : ND R) : Prop where
  solver : SolverOK solve
  wf : WFPoly (n + 1) f
  hom : ∀ e ∈ f, Spec.deg e.1 = d
  size : ∀ l ≤ (n + 1) * d, (l + n).choose n < 2 ^ 63
  built : ND.init solve p f = .ok N

/-- The sum of forms `Σ_j (k_j - 1)! G_j x^u x^(b_j) Ω / (x_0 ... x_n f^(k_j))` for coordinates `G` in the
list `basis`, where `k_j d = deg u + deg b_j`. -/
noncomputable def ndForm (n d : Nat) (basis : List (List Int)) (u : Fin (n + 1) → ℤ) (G : Nat → R) : Forms R n :=
  ∑ j ∈ Finset.range basis.length, G j •
    form ((∑ i, (u i + ev n (basis.getD j []) i)).toNat / d)
      ((((∑ i, (u i + ev n (basis.getD j []) i)).toNat / d - 1).factorial : R) •
        xpow R (fun i => u i + ev n (basis.getD j []) i - 1))

/-! ### Logarithmic forms

For a vector of integers `a` of degree `m d` the symbol `x^a` stands for the logarithmic form
`(m-1)! x^a / f^m dlog`.  The relations are those of the derivations `x_i ∂_i`: `x^a x_i ∂_i f` and
`a_i x^a` are cohomologous.  They make sense for every `a`, positive or not. -/

/-- Laurent polynomials. -/
abbrev Laurent (R : Type) [CommRing R] (n : Nat) := (Fin (n + 1) → ℤ) →₀ R

/-- The relation `x^a x_i ∂_i f - a_i x^a`. -/
noncomputable def logRel {n : Nat} (f : MvPolynomial (Fin (n + 1)) R) (a : Fin (n + 1) → ℤ)
    (i : Fin (n + 1)) : Laurent R n :=
  ∑ m ∈ f.support, Finsupp.single (fun j => a j + (m j : ℤ)) ((m i : R) * coeff m f) - Finsupp.single a ((a i : ℤ) : R)

/-- The exact logarithmic forms. -/
noncomputable def logExact {n : Nat} (f : MvPolynomial (Fin (n + 1)) R) : Submodule R (Laurent R n) :=
  Submodule.span R {w | ∃ a i, w = logRel f a i}

/-- The logarithmic form `x^u Σ_j G_j x^(b_j)`. -/
noncomputable def logForm (n : Nat) (basis : List (List Int)) (u : Fin (n + 1) → ℤ) (G : Nat → R) : Laurent R n :=
  ∑ j ∈ Finset.range basis.length, Finsupp.single (fun i => u i + ev n (basis.getD j []) i) (G j)

/-- `vs` is a path of reduction directions from `u` down to degree `d`: every direction has degree `d` and
leaves positive exponents. -/
def IsPathND (n d : Nat) : (Fin (n + 1) → ℤ) → List (List Int) → Prop
  | u, [] => ∑ i, u i = d
  | u, v :: vs => IsTuple (n + 1) d v ∧ (∀ i, 1 ≤ u i - ev n v i) ∧ IsPathND n d (u - ev n v) vs

end Verif.Spec
