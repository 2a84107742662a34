import Verif.Model.Vec
import Mathlib.Data.Int.Cast.Basic
import Mathlib.Algebra.Ring.Defs

/-!
Model of the combinatorial helpers in `tools/`: `binomial`, `binomial_ZZ`,
`tuple_list_generator`, `valuation_of_factorial`, `factorial_p_adic`, and the templates
`factorial` and `max` of `tools.h`.
-/

namespace Verif

/-! ### binomial.cc, binomial_ZZ.cc -/

/-- The loops `for (i = lo; i <= lo + cnt - 1; ++i) acc *= i`, starting from `acc = 1`
(tools/binomial.cc:19-26, tools/binomial_ZZ.cc:17-24). -/
def prodFrom (lo : Int) : Nat → Int
  | 0 => 1
  | cnt + 1 => prodFrom lo cnt * (lo + cnt)

/-- `binomial_ZZ(n, k)` (tools/binomial_ZZ.cc:12-26). -/
def binomialZZ (n k : Int) : Res Int := do
  check (decide (n ≥ k))
  let num := prodFrom (k + 1) (n - k).toNat
  let den := prodFrom 1 (n - k).toNat
  pure (num / den)

/-- NTL's `conv<long>(ZZ)`: the low 64 bits, read as a signed integer (NTL documents that the
conversion does not check for overflow). -/
def convLong (x : Int) : Int := Int.bmod x (2 ^ 64)

/-- `NumBytes(x) <= 8`, i.e. the magnitude of `x` fits in 64 bits. -/
def fits8Bytes (x : Int) : Bool := decide (x.natAbs < 2 ^ 64)

/-- `binomial(n, k)` (tools/binomial.cc:12-30): as `binomial_ZZ`, then `assert(NumBytes <= 8)`
and conversion to a signed 64-bit integer. -/
def binomial (n k : Int) : Res Int := do
  check (decide (n ≥ k))
  let num := prodFrom (k + 1) (n - k).toNat
  let den := prodFrom 1 (n - k).toNat
  let q := num / den
  check (fits8Bytes q)
  pure (convLong q)

/-! ### tuple_list_generator.cc -/

/-- `for (i = n-1; i > 0; --i) if (tuple[i] > 0) ...` (tools/tuple_list_generator.cc:25-27): the
largest index `i`, `0 < i ≤ start`, with a positive entry. -/
def scanDown (t : IVec) : Nat → Option Nat
  | 0 => none
  | i + 1 => if 0 < t.getD (i + 1) 0 then some (i + 1) else scanDown t i

/-- `sum = 0; for (; i < n-1; i++) { sum += tuple[i]; tuple[i] = 0; }`
(tools/tuple_list_generator.cc:31-36), with `cnt = n - 1 - i` iterations left. -/
def clearLoop (t : IVec) (i : Nat) : Nat → Int → Int × IVec
  | 0, sum => (sum, t)
  | cnt + 1, sum => clearLoop (t.set i 0) (i + 1) cnt (sum + t.getD i 0)

/-- One pass of the `for` loop in the body of the `while`
(tools/tuple_list_generator.cc:25-41): find the last positive entry, move one unit to its left
neighbour, and move the rest to the last entry.  If there is none the tuple is unchanged. -/
def tupleStep (t : IVec) : IVec :=
  let n := t.length
  match scanDown t (n - 1) with
  | none => t
  | some i =>
      let t := t.set (i - 1) (t.getD (i - 1) 0 + 1)
      let t := t.set i (t.getD i 0 - 1)
      let r := clearLoop t i (n - 1 - i) 0
      r.2.set (n - 1) (r.2.getD (n - 1) 0 + r.1)

/-- The `while (tuple[0] < d)` loop (tools/tuple_list_generator.cc:23-44).  `room` is the number
of entries of `result` after position `j`: writing `result[j]` past the end is undefined
behaviour. -/
def tupleLoop (d : Int) : Nat → IVec → Res (List IVec)
  | 0, t => if t.getD 0 0 < d then .error .ub else .ok []
  | room + 1, t =>
      if t.getD 0 0 < d then do
        let t' := tupleStep t
        let rest ← tupleLoop d room t'
        pure (t' :: rest)
      else .ok []

/-- `tuple_list_generator(result, d, n)` (tools/tuple_list_generator.cc:11-47): `result` gets
`binomial(d+n-1, n-1)` slots (a negative length is an NTL error, slot 0 must exist), the tuples
are written from `(0,...,0,d)` on, and the number written is asserted to be the length.
For `n = 0` the write `tuple[n-1]` is out of bounds. -/
def tupleListGenerator (d : Int) (n : Nat) : Res (List IVec) := do
  let len ← binomial (d + n - 1) (n - 1)
  if len < 0 then .error .abort
  else if n = 0 ∨ len = 0 then .error .ub
  else
    let t0 : IVec := List.replicate (n - 1) 0 ++ [d]
    let rest ← tupleLoop d (len.toNat - 1) t0
    let l := t0 :: rest
    let len' ← binomial (d + n - 1) (n - 1)
    check (decide ((l.length : Int) = len'))
    pure l

/-! ### valuation_of_factorial.cc -/

/-- `while (tmp != 0) { sum += tmp % p; tmp = tmp / p; }` (tools/valuation_of_factorial.cc:9-13),
for `p ≥ 2`. -/
def digitSumLoop (p : Nat) (hp : 2 ≤ p) (tmp sum : Nat) : Nat :=
  if _h : tmp = 0 then sum
  else digitSumLoop p hp (tmp / p) (sum + tmp % p)
termination_by tmp
decreasing_by exact Nat.div_lt_self (Nat.pos_of_ne_zero _h) (by omega)

/-- `valuation_of_factorial(n, p)` (tools/valuation_of_factorial.cc:6-15), for `n ≥ 0`:
`(n - digit sum) / (p - 1)`.  `p = 0` divides by zero; `p = 1` never ends (or, for `n = 0`,
divides by zero). -/
def valuationOfFactorial (n p : Nat) : Res Int :=
  if hp : 2 ≤ p then .ok (((n : Int) - digitSumLoop p hp n 0) / ((p : Int) - 1))
  else if p = 1 ∧ n ≠ 0 then .error .diverge
  else if p = 0 ∧ n = 0 then .ok 0
  else .error .ub

/-! ### factorial_p_adic.cc -/

/-- `while (tmp % p == 0) { tmp = tmp / p; ++val; }` (tools/factorial_p_adic.cc:21-25): returns
`(val, tmp)` after the loop.  With `tmp = 0` the loop never ends; the caller checks that. -/
def stripLoop (p tmp : Nat) : Nat × Nat :=
  if h : 2 ≤ p ∧ tmp ≠ 0 ∧ tmp % p = 0 then
    let r := stripLoop p (tmp / p)
    (r.1 + 1, r.2)
  else (0, tmp)
termination_by tmp
decreasing_by exact Nat.div_lt_self (Nat.pos_of_ne_zero h.2.1) (by omega)

/-- The loop over `i` (tools/factorial_p_adic.cc:17-28): `cnt` further factors starting at `i`,
with current `val` and `result`. -/
def facPLoop {R : Type} [Ring R] (p : Nat) : Nat → Nat → Nat → R → Res (Nat × R)
  | 0, _, val, result => .ok (val, result)
  | cnt + 1, i, val, result =>
      if i % p ≠ 0 then facPLoop p cnt (i + 1) val (result * (i : R))
      else if i = 0 then .error .diverge
      else
        let r := stripLoop p i
        facPLoop p cnt (i + 1) (val + r.1) (result * (r.2 : R))

/-- `factorial_p_adic(result, n, p, start)` (tools/factorial_p_adic.cc:13-33), for
`0 ≤ start` and `p ≥ 2`; returns `(val, result)`.  The residue ring `ZZ_p` is any ring `R`.
(Negative `start` is not modelled.) -/
def factorialPAdic {R : Type} [Ring R] (n p start : Nat) : Res (Nat × R) := do
  let r ← facPLoop p (n + 1 - start) start 0 (1 : R)
  if start = 1 then
    let v ← valuationOfFactorial n p
    check (decide ((r.1 : Int) = v))
    pure r
  else pure r

/-! ### templates of tools.h -/

/-- `factorial<R>(n, start)` (tools.h:132-139): the product of `start..n`. -/
def factorialR {R : Type} [Ring R] (n start : Nat) : R :=
  (List.range (n + 1 - start)).foldl (fun acc k => acc * ((start + k : Nat) : R)) 1

/-- `max(v)` (tools.h:141-149): reads `v[0]` first, which is undefined for an empty vector. -/
def maxVec : IVec → Res Int
  | [] => .error .ub
  | x :: xs => .ok (xs.foldl (fun m y => if y > m then y else m) x)

end Verif
