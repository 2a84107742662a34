import Verif.Model.DefaultArgs
import Verif.Model.Charpoly
import Verif.Model.Smooth
import Verif.Model.Text
import Verif.Model.Tools

/-!
Model of `wrapper/zeta_function.cc`.
-/

namespace Verif

/-! ### The choice of the precision (lines 52-98) -/

/-- What the first part of `zeta_function` leaves in `precision`, `N`, `charpoly_prec` and `lift_charpoly`. -/
structure ZetaPrec where
  precision : Int
  N : List Int
  charpolyPrec : List Int
  lift : Bool
  deriving DecidableEq

/-- The variables of the two loops. -/
structure PrecSt where
  r : List Int
  N : List Int
  precision : Int
  lift : Bool

/-- `valuation_of_factorial` of a signed argument; negative arguments are not modelled. -/
def valFact (m : Int) (p : Nat) : Res Int := if m < 0 then .error .ub else valuationOfFactorial m.toNat p

/-- `r_vector[i] + max(0, valuation_of_factorial(p * (i + N[i]) - 1, p) - i)` and the update of `precision`
(lines 72, 86). -/
def raisePrec (p : Nat) (i : Nat) (r N precision : Int) : Res Int := do
  let v ← valFact (p * (i + N) - 1) p
  .ok (max precision (r + max 0 (v - i)))

/-- The loop of the branch `increase_precision_to_deduce_zeta` (wrapper/zeta_function.cc:68-73). -/
def incrStep (p : Nat) (n abs : Int) (i : Nat) (s : PrecSt) : Res PrecSt := do
  let ri ← aget s.r i
  let ri := max ri (abs - (n - 1) + i)
  let Ni ← aget s.N i
  check (decide (ri + n - (i + 1) ≥ Ni))
  let Ni := ri + n - (i + 1)
  let precision ← raisePrec p i ri Ni s.precision
  let r ← aset s.r i ri
  let N ← aset s.N i Ni
  .ok ⟨r, N, precision, s.lift⟩

/-- The loop of the other branch (wrapper/zeta_function.cc:76-88). -/
def absStep (p : Nat) (n abs : Int) (i : Nat) (s : PrecSt) : Res PrecSt := do
  let rel := abs - (n - 1) + i
  let ri ← aget s.r i
  let lift := s.lift && decide (rel ≥ ri)
  if rel ≤ 0 then do
    let r ← aset s.r i 0
    let N ← aset s.N i 0
    .ok ⟨r, N, s.precision, lift⟩
  else do
    let Ni := rel + n - (i + 1)
    let precision ← raisePrec p i rel Ni s.precision
    let r ← aset s.r i rel
    let N ← aset s.N i Ni
    .ok ⟨r, N, precision, lift⟩

/-- Lines 52-98 of wrapper/zeta_function.cc. -/
def choosePrec (p : Nat) (n d abs : Int) (increase : Bool) : Res ZetaPrec := do
  let a ← defaultArgs p n d
  if 0 < abs then do
    let r ← (List.range n.toNat).mapM (fun i => do
      let Ni ← aget a.N i
      .ok (Ni + ((i : Int) + 1) - n))
    let s ←
      if increase then forRange n.toNat (⟨r, a.N, a.precision, true⟩ : PrecSt) (incrStep p n abs)
      else forRange n.toNat (⟨r, a.N, 1, true⟩ : PrecSt) (absStep p n abs)
    check (decide (abs ≤ s.precision))
    let m ← maxVec s.r
    if (p : Int) < 2 * n + m then .error .abort
    else .ok ⟨s.precision, s.N, a.charpolyPrec, s.lift⟩
  else .ok ⟨a.precision, a.N, a.charpolyPrec, true⟩

/-! ### The main routine -/

/-- What `hypersurface_non_degenerate` (`true`) and `hypersurface` (`false`) compute from a polynomial modulo
`p^precision` and `N`: the number of elements of the basis and the matrix. -/
abbrev FrobRoutine (p : Nat) :=
  (precision : Nat) → Bool → MonMap (ZMod (p ^ precision)) → List Int → Res (Nat × CMat (ZMod (p ^ precision)))

/-- `conv` of the coefficients (wrapper/zeta_function.cc:104-110). -/
def reduceCoeffs (q : Nat) (f : MonMap Int) : MonMap (ZMod q) := f.map (fun e => (e.1, (e.2 : ZMod q)))

/-- `conv<Mat<ZZ> >` (the representatives). -/
def repMat {q : Nat} (M : CMat (ZMod q)) : CMat Int := ⟨M.rows, M.cols, fun i j => ((M.e i j).val : Int)⟩

/-- `conv< Mat<ZZ_p> >(conv<Mat<ZZ> >(M))` (wrapper/zeta_function.cc:124). -/
def liftMat {p : Nat} (q : Nat) (M : CMat (ZMod p)) : CMat (ZMod q) :=
  ⟨M.rows, M.cols, fun i j => ((M.e i j).val : ZMod q)⟩

/-- `IsZero(M)`. -/
def isZeroMat {p : Nat} (M : CMat (ZMod p)) : Bool :=
  (List.range M.rows).all (fun i => (List.range M.cols).all (fun j => decide (M.e i j = 0)))

/-- Lines 112-133: whether the model used is non-degenerate, and its polynomial.  `none` when the search for a
matrix is still running after `t` passes of the loop of `random_SL_matrix`. -/
def chooseModel {p : Nat} [Fact p.Prime] (la : RankDet (ZMod p)) (rnd : Rnd (ZMod p)) (t q : Nat) (better : Bool)
    (fp : MonMap (ZMod p)) (fq : MonMap (ZMod q)) : Res (Option (Bool × MonMap (ZMod q))) := do
  let smooth ← isSmooth la q fp
  if smooth then do
    let nd ← isND la q fp
    if !nd && better then do
      match ← findChangeOfVariables la q rnd t fp (p * 100 + 100) with
      | none => .ok none
      | some (M, _) =>
          if isZeroMat M then .ok (some (false, fq))
          else do
            let g ← changeOfVariables fq (liftMat q M)
            .ok (some (true, g))
    else .ok (some (nd, fq))
  else .error .abort

/-- Lines 157-168: the characteristic polynomial. -/
def zetaPoly (p : Nat) (n abs : Int) (z : ZetaPrec) (F : CMat Int) : Res (List Int) :=
  if z.lift then charpolyFrob F z.charpolyPrec p (n - 1).toNat
  else do
    let cp ← charpoly F
    let m ← powerZZ p abs
    .ok (cp.map (fun c => c % m))

/-- `zeta_function(zeta, Frob_ZZ, f, ...)` (wrapper/zeta_function.cc:28-172), for a prime `p`: the
coefficients of `zeta` and `Frob_ZZ`. -/
def zetaMain (p : Nat) [Fact p.Prime] (la : RankDet (ZMod p)) (rnd : Rnd (ZMod p)) (t : Nat) (frob : FrobRoutine p)
    (f : MonMap Int) (abs : Int) (increase better : Bool) : Res (Option (List Int × CMat Int)) :=
  match f with
  | [] => .error .ub
  | (k, _) :: _ => do
      let n : Int := (k.length : Int) - 1
      let d := sumVec k
      let z ← choosePrec p n d abs increase
      let q := p ^ z.precision.toNat
      match ← chooseModel la rnd t q better (reduceCoeffs p f) (reduceCoeffs q f) with
      | none => .ok none
      | some (nd, g) => do
          let F ← frob z.precision.toNat nd g z.N
          check (decide (F.1 + 1 = z.charpolyPrec.length))
          let cp ← zetaPoly p n abs z (repMat F.2)
          .ok (some (cp, repMat F.2))

/-! ### The overloads; `main` is the routine above with everything but `f` and `p` fixed -/

/-- `zeta_function(zeta, Frob_ZZ, monomials, coefficients, p, ...)` with `vector<ZZ>` (lines 175-201). -/
def zetaVec {α : Type} (main : MonMap Int → Int → Res α) (monomials : List IVec) (coefficients : List Int) (p : Int) :
    Res α := do
  check (decide (monomials.length = coefficients.length))
  checkKeys monomials
  main ((monomials.zip coefficients).foldl (fun m e => MonMap.set m e.1 e.2) []) p

/-- The overload with `vector<int64_t>` (lines 203-220): the coefficients are converted. -/
def zetaVec64 {α : Type} (main : MonMap Int → Int → Res α) (monomials : List IVec) (coefficients : List Int) (p : Int) :
    Res α := zetaVec main monomials coefficients p

/-- `zeta_function(zeta, Frob_ZZ, input, ...)` (lines 229-250): `p` and then the polynomial. -/
def zetaStr {α : Type} (main : MonMap Int → Int → Res α) (input : Str) : Res α := do
  let rp ← readInt input
  let rf ← readPoly readInt rp.2
  main rf.1 rp.1

end Verif
