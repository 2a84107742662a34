/-
Outcomes of a C++ call.

The code in /repo stops or misbehaves in several distinct ways; the model keeps them apart
instead of assuming them away.
-/

namespace Verif

/-- The ways in which a call may fail to return a value. -/
inductive Fail where
  /-- an `assert(...)` of the code is violated (asserts are compiled in unless the code is
  configured with `--disable-assert`, configure:393-395) -/
  | assertFail
  /-- `abort()` is called, or NTL's `Error` terminates the program -/
  | abort
  /-- undefined behaviour: out-of-bounds access, dereferencing `begin()` of an empty map, ... -/
  | ub
  /-- the loop or recursion never ends -/
  | diverge
  deriving DecidableEq, Repr

/-- Result of a C++ call: a value, or one of the failures above. -/
abbrev Res (α : Type _) := Except Fail α

instance {α : Type _} [DecidableEq α] : DecidableEq (Res α)
  | .ok a, .ok b => if h : a = b then isTrue (by rw [h]) else isFalse (by intro h'; cases h'; exact h rfl)
  | .error a, .error b =>
      if h : a = b then isTrue (by rw [h]) else isFalse (by intro h'; cases h'; exact h rfl)
  | .ok _, .error _ => isFalse (by intro h; cases h)
  | .error _, .ok _ => isFalse (by intro h; cases h)

/-- `assert(b)`. -/
def check (b : Bool) : Res Unit := if b then .ok () else .error .assertFail

@[simp] theorem check_true : check true = .ok () := rfl
@[simp] theorem check_false : check false = .error .assertFail := rfl

@[simp] theorem Res.pure_eq {α : Type _} (a : α) : (pure a : Res α) = .ok a := rfl
@[simp] theorem Res.bind_ok {α β : Type _} (a : α) (f : α → Res β) :
    ((.ok a : Res α) >>= f) = f a := rfl
@[simp] theorem Res.bind_error {α β : Type _} (e : Fail) (f : α → Res β) :
    ((.error e : Res α) >>= f) = .error e := rfl

theorem Res.bind_eq_ok {α β : Type _} {x : Res α} {f : α → Res β} {b : β} :
    (x >>= f) = .ok b ↔ ∃ a, x = .ok a ∧ f a = .ok b := by
  cases x <;> simp

theorem check_eq_ok {b : Bool} {u : Unit} : check b = .ok u ↔ b = true := by
  cases b <;> simp

end Verif
