import Verif.Model.Zeta
import Mathlib.NumberTheory.Padics.PadicVal.Basic

/-! Specification for C40: what the precisions chosen by `zeta_function` have to satisfy. -/

namespace Verif.Spec

/-- The precision needed for the columns of pole order `i + 1` when `N` terms of the expansion are used: the relative
precision `N + (i + 1) - n`, and the power of `p` lost in the reduction, `v_p((p (i + N) - 1)!) - i` if positive. -/
def precNeeded (p : Nat) (n : Int) (i : Nat) (N : Int) : Int :=
  (N + (i + 1) - n) + max 0 ((padicValNat p (p * (i + N) - 1).toNat.factorial : Int) - i)

/-- The choice `z` for the requested `abs > 0`, the defaults being `a`. -/
structure PrecSpec (p : Nat) (n abs : Int) (increase : Bool) (a : DefaultArgs) (z : ZetaPrec) : Prop where
  len : (z.N.length : Int) = n
  charpoly : z.charpolyPrec = a.charpolyPrec
  abs_le : abs ≤ z.precision
  needed : ∀ i : Nat, (i : Int) < n → 0 < z.N.getD i 0 → precNeeded p n i (z.N.getD i 0) ≤ z.precision
  terms : ∀ i : Nat, (i : Int) < n → z.N.getD i 0 =
    if increase then max (a.N.getD i 0) abs else if n - 1 - i < abs then abs else 0
  small : ∀ i : Nat, (i : Int) < n → 2 * n + (z.N.getD i 0 + (i + 1) - n) ≤ p
  lift : z.lift = true ↔ increase = true ∨ ∀ i : Nat, (i : Int) < n → a.N.getD i 0 ≤ abs
  enough : z.lift = true → a.precision ≤ z.precision ∧ ∀ i : Nat, (i : Int) < n → a.N.getD i 0 ≤ z.N.getD i 0

end Verif.Spec
