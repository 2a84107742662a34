import Mathlib.Algebra.MvPolynomial.PDeriv
import Mathlib.RingTheory.MvPolynomial.Homogeneous
import Verif.Spec.Poly
import Verif.Spec.Tools
import Verif.Spec.SolveSystem
import Verif.Model.DeRham

/-!
Specification of the de Rham cohomology classes computed by `de_Rham_local`.

A differential form `G Ω / f^m` on the complement of `f = 0` in projective `n`-space is represented by
the pair `(m, G)`; a finite sum of such forms is a finitely supported function `ℕ →₀ polynomials`.
Exact forms are generated by the Griffiths relations: for `F` homogeneous of degree `m d - n`,
`m F ∂_i f Ω / f^(m+1)` is cohomologous to `∂_i F Ω / f^m`
(the difference is, up to sign, the `i`-th partial derivative of `F / f^m`; see
`griffiths_is_derivative` in `Verif/Lemmas/DeRhamSpec.lean`).
-/

namespace Verif.Spec

open MvPolynomial

variable {R : Type} [CommRing R]

/-- An exponent vector as a function. -/
def ev (n : Nat) (t : List Int) : Fin (n + 1) → ℤ := fun i => t.getD i 0

/-- The monomial `x^a`; 0 when an exponent is negative. -/
noncomputable def xpow (R : Type) [CommRing R] {n : Nat} (a : Fin (n + 1) → ℤ) :
    MvPolynomial (Fin (n + 1)) R :=
  open Classical in
  if ∀ i, 0 ≤ a i then monomial (Finsupp.equivFunOnFinite.symm (fun i => (a i).toNat)) 1 else 0

/-- Finite sums of forms `G Ω / f^m`. -/
abbrev Forms (R : Type) [CommRing R] (n : Nat) := ℕ →₀ MvPolynomial (Fin (n + 1)) R

/-- The form `G Ω / f^m`. -/
noncomputable def form {n : Nat} (m : ℕ) (G : MvPolynomial (Fin (n + 1)) R) : Forms R n :=
  Finsupp.single m G

/-- The Griffiths relation for `F`, `i`, `m`. -/
noncomputable def griffiths {n : Nat} (f F : MvPolynomial (Fin (n + 1)) R) (i : Fin (n + 1)) (m : ℕ) :
    Forms R n :=
  form (m + 1) ((m : R) • (F * pderiv i f)) - form m (pderiv i F)

/-- The exact forms, for `f` of degree `d`. -/
noncomputable def exactForms {n : Nat} (f : MvPolynomial (Fin (n + 1)) R) (d : ℕ) :
    Submodule R (Forms R n) :=
  Submodule.span R {w | ∃ (m e : ℕ) (i : Fin (n + 1)) (F : MvPolynomial (Fin (n + 1)) R),
    1 ≤ m ∧ e + n = m * d ∧ F.IsHomogeneous e ∧ w = griffiths f F i m}

/-- Two sums of forms are cohomologous. -/
def Cohomologous {n : Nat} (f : MvPolynomial (Fin (n + 1)) R) (d : ℕ) (w w' : Forms R n) : Prop :=
  w - w' ∈ exactForms f d

/-- The polynomial with coordinates `G` in the list of monomials `L`. -/
noncomputable def combo (n : Nat) (L : List (List Int)) (G : Nat → R) : MvPolynomial (Fin (n + 1)) R :=
  ∑ k ∈ Finset.range L.length, G k • xpow R (ev n (L.getD k []))

/-- The polynomial `x^u / (x_0 ... x_n)` times the one with coordinates `G` in the list `L`; monomials
not divisible by `x_0 ... x_n` are left out. -/
noncomputable def family (n : Nat) (L : List (List Int)) (u : Fin (n + 1) → ℤ) (G : Nat → R) :
    MvPolynomial (Fin (n + 1)) R :=
  ∑ k ∈ Finset.range L.length, G k • xpow R (fun i => u i + ev n (L.getD k []) i - 1)

/-- Component `k` of coordinates in the list `L` is admissible at `u`: the monomial `x^u x^(L_k)` is
divisible by `x_0 ... x_n`. -/
def Admissible (n : Nat) (L : List (List Int)) (u : Fin (n + 1) → ℤ) (k : Nat) : Prop :=
  ∀ i, 1 ≤ u i + ev n (L.getD k []) i

/-- `L` lists the monomials of degree `l` in `n+1` variables in lexicographic order. -/
def IsTable (n : Nat) (l : Int) (L : List (List Int)) : Prop :=
  L.Pairwise LexLt ∧ ∀ t, t ∈ L ↔ IsTuple (n + 1) l t

/-- `f` is homogeneous of degree `d`, and the lists and reverse lookup tables are those of the monomials of
each degree `0 .. (n+1)d`. -/
structure TabOK (D : DR R) : Prop where
  f_wf : WFPoly (D.n + 1) D.f
  f_hom : ∀ e ∈ D.f, deg e.1 = D.d
  tables : ∀ l : Nat, l ≤ (D.n + 1) * D.d → ∃ L, IsTable D.n l L ∧
    D.tupleList[l]? = some L ∧ D.tupleDict[l]? = some (buildDict L)

/-- The object is well formed: as `TabOK`, and `d > n`. -/
structure DROk (D : DR R) : Prop extends TabOK D where
  hd : D.n < D.d

/-- The polynomial the object is built from. -/
noncomputable def DRpoly (D : DR R) : MvPolynomial (Fin (D.n + 1)) R := toPoly (D.n + 1) D.f

/-- The contract of the solver (property C20 says `solve_system_padic` meets it). -/
def SolverOK (solve : Solver R) : Prop := ∀ T, ∃ B U, solve T = .ok (B, U) ∧ Solves T B U

/-- All monomials of degree `(d-2)(n+1)+1` are in the Jacobian ideal, as the constructor asserts
(dr/init.cc:82-83). -/
def TopOK (solve : Solver R) (D : DR R) : Prop := ∃ U, solveJ solve D D.topLevel = .ok ([], U)

/-- The pole order of the form belonging to the monomial `t`: `k` with `deg t = k d - (n+1)`. -/
def poleOrder (n d : Nat) (t : List Int) : Nat := ((deg t + n + 1) / d).toNat

/-- The cohomology basis is the one the constructor builds (property C45): no repetitions, pole orders
`1 .. n`, and in each degree it contains the monomials the solver lists. -/
structure BasisOK (solve : Solver R) (D : DR R) : Prop where
  dict : D.basisDict = buildDict D.basis
  nodup : D.basis.Nodup
  pole : ∀ t ∈ D.basis, ∃ k : Nat, 1 ≤ k ∧ k ≤ D.n ∧ IsTuple (D.n + 1) ((k : Int) * D.d - (D.n + 1)) t
  block : ∀ k : Nat, 1 ≤ k → k ≤ D.n → ∀ B U L, solveJ solve D ((k : Int) * D.d - (D.n + 1)) = .ok (B, U) →
    D.list ((k : Int) * D.d - (D.n + 1)) = .ok L → ∀ b ∈ B, L.getD b [] ∈ D.basis

/-- The sum of forms with coordinates `c` in the list `basis` of monomials: `Σ c_j x^(b_j) Ω / f^(k_j)`,
`k_j` being the pole order belonging to the degree of `b_j`. -/
noncomputable def basisForm (n d : Nat) (basis : List (List Int)) (c : Nat → R) : Forms R n :=
  ∑ j ∈ Finset.range basis.length,
    c j • form (poleOrder n d (basis.getD j [])) (xpow R (ev n (basis.getD j [])))

/-- `D` is an object returned by the constructor for a homogeneous `f` of degree `d` in `n+1` variables,
with a solver meeting its contract; the monomial lists fit in memory (their lengths are below `2^63`). -/
structure Constructed (solve : Solver R) (p : Nat) (f : MonMap R) (n d : Nat) (D : DR R) : Prop where
  solver : SolverOK solve
  wf : WFPoly (n + 1) f
  hom : ∀ e ∈ f, deg e.1 = d
  size : ∀ l ≤ (n + 1) * d, (l + n).choose n < 2 ^ 63
  built : DR.init solve p f = .ok D

end Verif.Spec
