import Verif.Core.Res

/-!
Model of `vec_int64.h` and `vec_int64/*.cc`: vectors of `int64_t`, used as exponent vectors.

A `Vec<int64_t>` is a `List Int` (64-bit overflow of exponents is not modelled).
-/

namespace Verif

/-- A `Vec<int64_t>`. -/
abbrev IVec := List Int

/-- The loop of `operator<` (vec_int64.h:33-39), on vectors already known to have equal length:
the entries before the last decide if they differ, else the last entries are compared.
Two empty vectors read `a[-1]`, which is undefined behaviour. -/
def ltLoop : IVec → IVec → Res Bool
  | [], [] => .error .ub
  | [a], [b] => .ok (decide (a < b))
  | a :: as, b :: bs =>
      if a > b then .ok false else if a < b then .ok true else ltLoop as bs
  | _, _ => .error .ub

/-- `operator<(Vec<int64_t>, Vec<int64_t>)` (vec_int64.h:28-40), the comparison of every
`std::map` keyed by exponent vectors (`vi64less`, vec_int64.h:20-26).
A length mismatch calls `NTL::Error`. -/
def ltVec (a b : IVec) : Res Bool :=
  if a.length ≠ b.length then .error .abort else ltLoop a b

/-- `mul(res, c, v)` and `operator*(int64_t, Vec)` (vec_int64.h:43-49, 108-113). -/
def mulVec (c : Int) (v : IVec) : IVec := v.map (c * ·)

/-- `add(res, v, w)` and `operator+` (vec_int64.h:52-59, 94-99). -/
def addVec (v w : IVec) : Res IVec := do
  check (decide (v.length = w.length))
  pure (List.zipWith (· + ·) v w)

/-- `sub(res, v, w)` and `operator-` (vec_int64.h:61-68, 101-106). -/
def subVec (v w : IVec) : Res IVec := do
  check (decide (v.length = w.length))
  pure (List.zipWith (· - ·) v w)

/-- `mul(int64_t &res, v, w)`, the scalar product (vec_int64.h:71-77). -/
def dotVec (v w : IVec) : Res Int := do
  check (decide (v.length = w.length))
  pure ((List.zipWith (· * ·) v w).foldl (· + ·) 0)

/-- `mul(res, A, v)`, matrix times vector (vec_int64.h:80-88).  The matrix is a list of rows of
`cols` entries. -/
def mulMatVec (cols : Nat) (A : List IVec) (v : IVec) : Res IVec := do
  check (decide (cols = v.length))
  A.mapM (fun row => dotVec row v)

/-- `diff(v, i)` (vec_int64/diff.cc:13-18): `v - e_i`, asserting that the entry is positive.
`r[i]` outside the vector is undefined behaviour. -/
def diffVec (v : IVec) (i : Nat) : Res IVec :=
  match v[i]? with
  | none => .error .ub
  | some x => do
      check (decide (0 < x))
      pure (v.set i (x - 1))

/-- `tweak_step(v)` (vec_int64/tweak_step.cc:12-22): decrement the first positive entry. -/
def tweakStep : IVec → IVec
  | [] => []
  | x :: xs => if 0 < x then (x - 1) :: xs else x :: tweakStep xs

/-- The recursion of `tweak` (vec_int64/tweak.cc:11-19) for a non-negative count. -/
def tweakNat (v : IVec) : Nat → IVec
  | 0 => v
  | r + 1 => tweakNat (tweakStep v) r

/-- `tweak(v, r)` (vec_int64/tweak.cc:11-19).  The recursion stops only at `r == 0`, so a
negative `r` recurses for ever. -/
def tweak (v : IVec) (r : Int) : Res IVec :=
  if r < 0 then .error .diverge else .ok (tweakNat v r.toNat)

/-- Sum of the entries; the loops computing `sum` in many functions, e.g.
dr/monomial_to_basis_J.cc:16-20. -/
def sumVec (v : IVec) : Int := v.foldl (· + ·) 0

end Verif
