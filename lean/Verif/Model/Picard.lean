import Mathlib.RingTheory.Polynomial.Cyclotomic.Basic
import Verif.Core.Res

/-!
Model of tools/geometric_picard.cc.  An `fmpz_poly` is a polynomial with integer coefficients.  The test
`((double)k)/(log(k)/log(2) + 1) <= degree` is a parameter `cmp k degree`: it is computed in floating point,
and its contract (`Spec.CmpOK`) allows for rounding.  The factorisation of FLINT is a parameter as well.
-/

namespace Verif

open Polynomial

/-- The change of variables `T -> T/p` (tools/geometric_picard.cc:32-47): `k` passes left, coefficient `i`
next, `pw` the power of `p`.  `none` when a remainder is not zero.  (`fmpz_fdiv_qr` stops on division by 0.) -/
noncomputable def shiftLoop (p : Nat) : Nat → Nat → Int → ℤ[X] → Res (Option ℤ[X])
  | 0, _, _, f => .ok (some f)
  | k + 1, i, pw, f =>
      if pw = 0 then .error .abort
      else
        let q := (f.coeff i).fdiv pw
        let rem := (f.coeff i).fmod pw
        if rem ≠ 0 then .ok none
        else shiftLoop p k (i + 1) (pw * p) (f.update i q)

open Classical in
/-- The search among the cyclotomic polynomials (tools/geometric_picard.cc:50-63) from `k` on, at most `t`
passes (`none`: still running); an access behind the table is undefined behaviour. -/
noncomputable def cycloLoop (cmp : Nat → Nat → Bool) (cyclo : List ℤ[X]) (f : ℤ[X]) (degree : Nat) :
    Nat → Nat → Res (Option Int)
  | 0, _ => .ok none
  | t + 1, k =>
      if cmp k degree then
        match cyclo[k]? with
        | none => .error .ub
        | some c => if f = c then .ok (some degree) else cycloLoop cmp cyclo f degree t (k + 1)
      else .ok (some 0)

/-- `number_of_roots_of_unity(cyclo, f, p)` (tools/geometric_picard.cc:22-68). -/
noncomputable def numberOfRootsOfUnity (cmp : Nat → Nat → Bool) (cyclo : List ℤ[X]) (f : ℤ[X]) (p t : Nat) :
    Res (Option Int) := do
  let degree := f.natDegree
  match ← shiftLoop p degree 1 p f with
  | none => .ok (some 0)
  | some g => cycloLoop cmp cyclo g degree t 1

/-- The loop choosing the length of the table (tools/geometric_picard.cc:90-94). -/
def tableLoop (cmp : Nat → Nat → Bool) (maxDegree : Nat) : Nat → Nat → Option Nat
  | 0, _ => none
  | t + 1, N => if cmp N maxDegree then tableLoop cmp maxDegree t (N + 1) else some N

/-- The reversed polynomial (tools/geometric_picard.cc:77-81): coefficient `i` is entry `length - 1 - i`. -/
noncomputable def reversedPoly (cp : List Int) : ℤ[X] :=
  ∑ i ∈ Finset.range cp.length, C (cp.getD (cp.length - 1 - i) 0) * X ^ i

/-- The sum over the factors (tools/geometric_picard.cc:100-104). -/
noncomputable def countLoop (cmp : Nat → Nat → Bool) (cyclo : List ℤ[X]) (p t : Nat) :
    List (ℤ[X] × Nat) → Int → Res (Option Int)
  | [], count => .ok (some count)
  | (g, e) :: fs, count => do
      match ← numberOfRootsOfUnity cmp cyclo g p t with
      | none => .ok none
      | some r => countLoop cmp cyclo p t fs (count + e * r)

/-- `geometric_picard(charpoly_frob, p, dimension)` (tools/geometric_picard.cc:70-113); `t` bounds the passes of
each of the loops over `k` and `N`. -/
noncomputable def geometricPicard (cmp : Nat → Nat → Bool) (factor : ℤ[X] → List (ℤ[X] × Nat)) (cp : List Int)
    (p : Nat) (dimension : Int) (t : Nat) : Res (Option Int) := do
  let fac := factor (reversedPoly cp)
  let maxDegree := fac.foldl (fun m g => max m g.1.natDegree) 0
  match tableLoop cmp maxDegree t 1 with
  | none => .ok none
  | some N => do
      let cyclo := (List.range N).map (fun i => cyclotomic i ℤ)
      match ← countLoop cmp cyclo p t fac 0 with
      | none => .ok none
      | some count => do
          let count := if dimension.tmod 2 = 0 then count + 1 else count
          check (decide (dimension ≠ 2) || decide (((cp.length : Int)).tmod 2 = count.tmod 2))
          .ok (some count)

end Verif
