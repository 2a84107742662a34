import Verif.Model.Charpoly
import Mathlib.Analysis.SpecialFunctions.Log.Basic

/-!
The places where the code computes with `double`: the precision assertion of `charpoly_frob`
(matrix/charpoly_frob.cc:73) and the loop tests of `geometric_picard` (tools/geometric_picard.cc:51, 91).

The operations are parameters; results are real numbers.  `log` is the conversion of the `int64_t` to `double` followed
by `log`.  The other conversions (of `prec`, `dimension`, `k`, `degree`) are taken as exact: the numbers are below `2^53`.
-/

namespace Verif

/-- The floating point operations used: `log` of an integer, `+`, `/`, `*`. -/
structure FlOps where
  log : Nat → ℝ
  add : ℝ → ℝ → ℝ
  div : ℝ → ℝ → ℝ
  mul : ℝ → ℝ → ℝ

namespace FlOps

/-- `log(k)/log(p) + prec`. -/
noncomputable def lhs (F : FlOps) (p : Nat) (prec : Int) (k : Nat) : ℝ := F.add (F.div (F.log k) (F.log p)) prec

/-- `log(2*degree)/log(p) + 0.5*dimension*k`. -/
noncomputable def rhs (F : FlOps) (p degree dim k : Nat) : ℝ :=
  F.add (F.div (F.log (2 * degree)) (F.log p)) (F.mul (F.mul (1 / 2) dim) k)

open Classical in
/-- The assertion (matrix/charpoly_frob.cc:73). -/
noncomputable def precAssert (F : FlOps) (p degree dim : Nat) (prec : Int) (k : Nat) : Bool :=
  decide (F.rhs p degree dim k < F.lhs p prec k)

open Classical in
/-- `((double)k)/(log(k)/log(2) + 1) <= degree` (tools/geometric_picard.cc:51, 91). -/
noncomputable def cmp (F : FlOps) (k degree : Nat) : Bool :=
  decide (F.div k (F.add (F.div (F.log k) (F.log 2)) 1) ≤ degree)

end FlOps

/-- `charpoly_frob` (matrix/charpoly_frob.cc:14-93) with the given precision assertion; `charpolyFrob` is the case of
the exact one. -/
def charpolyFrobWith (pa : (degree : Nat) → Int → Nat → Bool) (M : CMat Int) (prec : List Int) (p dim : Nat) :
    Res (List Int) := do
  let cp ← charpoly M
  let degree := cp.length - 1
  check (decide (prec.length = cp.length))
  let st ← frobReduce p degree ⟨fun i => prec.getD i 0, fun _ => 0, fun i => cp.getD i 0⟩
  let st := { st with cp := upd st.cp degree 1 }
  let signal ← frobSign p degree dim st.prec st.cp
  let st := { st with cp := upd st.cp 0 (signal * (p : Int) ^ ((degree * dim) / 2)) }
  let st ← forRange (degree / 2 + 1) st (symStep p degree dim signal)
  let e := fun k => if k % 2 = 0 then st.cp (degree - k) else -st.cp (degree - k)
  forRange degree () (fun k _ => check (pa degree (st.prec (degree - (k + 1))) (k + 1)))
  let out ← forRange degree (e, fun _ => 0, st.cp) (fun k st' => liftStep p degree dim st.md (k + 1) st')
  pure ((List.range (degree + 1)).map out.2.2)

/-- `charpoly_frob` with the assertion as it is evaluated, in floating point. -/
noncomputable def charpolyFrobF (F : FlOps) (M : CMat Int) (prec : List Int) (p dim : Nat) : Res (List Int) :=
  charpolyFrobWith (fun degree => F.precAssert p degree dim) M prec p dim

end Verif
