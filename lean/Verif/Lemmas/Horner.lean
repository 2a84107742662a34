import Mathlib.Algebra.Field.ZMod
import Mathlib.Algebra.CharP.Lemmas
import Mathlib.Tactic.Ring
import Mathlib.Tactic.LinearCombination

/-!
Polynomials in four variables with coefficients modulo 3 as nested lists, for certificates that are checked by evaluation: a
polynomial is the list of its coefficients with respect to the first variable, and so on.
-/

namespace Verif

def addL {A : Type} (add : A → A → A) : List A → List A → List A
  | [], m => m
  | a :: l, [] => a :: l
  | a :: l, b :: m => add a b :: addL add l m

def mulL {A : Type} (add mul : A → A → A) (zero : A) : List A → List A → List A
  | [], _ => []
  | a :: l, m => addL add (m.map (mul a)) (zero :: mulL add mul zero l m)

/-- The value at `x`, coefficients having the values `e`. -/
def evL {A L : Type} [CommRing L] (e : A → L) (x : L) : List A → L
  | [] => 0
  | a :: l => e a + x * evL e x l

section

variable {A L : Type} [CommRing L] {e : A → L} {add mul : A → A → A} {zero : A} {isZero : A → Bool} (x : L)

theorem evL_add (h : ∀ a b, e (add a b) = e a + e b) : ∀ l m, evL e x (addL add l m) = evL e x l + evL e x m
  | [], m => by rw [addL, evL, zero_add]
  | a :: l, [] => by rw [addL, evL, evL, add_zero]
  | a :: l, b :: m => by rw [addL, evL, evL, evL, h, evL_add h l m]; ring

theorem evL_map (h : ∀ a b, e (mul a b) = e a * e b) (a : A) : ∀ l, evL e x (l.map (mul a)) = e a * evL e x l
  | [] => by rw [List.map_nil, evL, mul_zero]
  | b :: l => by rw [List.map_cons, evL, evL, h, evL_map h a l]; ring

theorem evL_mul (h : ∀ a b, e (add a b) = e a + e b) (h' : ∀ a b, e (mul a b) = e a * e b) (h0 : e zero = 0) :
    ∀ l m, evL e x (mulL add mul zero l m) = evL e x l * evL e x m
  | [], m => by rw [mulL, evL, zero_mul]
  | a :: l, m => by rw [mulL, evL_add x h, evL_map x h', evL, h0, evL_mul h h' h0 l m, evL]; ring

theorem evL_zero (h : ∀ a, isZero a = true → e a = 0) : ∀ l : List A, l.all isZero = true → evL e x l = 0
  | [], _ => rfl
  | a :: l, hl => by
      rw [List.all_cons, Bool.and_eq_true] at hl
      rw [evL, h a hl.1, evL_zero h l hl.2, mul_zero, add_zero]

end

/-! ### Four variables, modulo 3 -/

abbrev H1 := List Nat
abbrev H2 := List H1
abbrev H3 := List H2
abbrev H4 := List H3

def hadd0 (a b : Nat) : Nat := (a + b) % 3
def hmul0 (a b : Nat) : Nat := (a * b) % 3
def hadd1 : H1 → H1 → H1 := addL hadd0
def hmul1 : H1 → H1 → H1 := mulL hadd0 hmul0 0
def hadd2 : H2 → H2 → H2 := addL hadd1
def hmul2 : H2 → H2 → H2 := mulL hadd1 hmul1 []
def hadd3 : H3 → H3 → H3 := addL hadd2
def hmul3 : H3 → H3 → H3 := mulL hadd2 hmul2 []
def hadd4 : H4 → H4 → H4 := addL hadd3
def hmul4 : H4 → H4 → H4 := mulL hadd3 hmul3 []
def hzero4 (l : H4) : Bool := l.all (fun l => l.all (fun l => l.all (fun l => l.all (fun a => a == 0))))

section

variable {L : Type} [CommRing L] (h3 : (3 : L) = 0) (x y z w : L)

def ev0 (a : Nat) : L := (a : L)
def ev1 : H1 → L := evL ev0 w
def ev2 : H2 → L := evL (ev1 w) z
def ev3 : H3 → L := evL (ev2 z w) y
/-- The value of a nested list. -/
def ev4 : H4 → L := evL (ev3 y z w) x

include h3 in
theorem ev0_mod (a : Nat) : ((a % 3 : Nat) : L) = a := by
  conv_rhs => rw [← Nat.div_add_mod a 3]
  push_cast
  rw [h3, zero_mul, zero_add]

include h3 in
theorem ev0_add (a b : Nat) : (ev0 (hadd0 a b) : L) = ev0 a + ev0 b := by
  rw [ev0, hadd0, ev0_mod h3, Nat.cast_add]; rfl

include h3 in
theorem ev0_mul (a b : Nat) : (ev0 (hmul0 a b) : L) = ev0 a * ev0 b := by
  rw [ev0, hmul0, ev0_mod h3, Nat.cast_mul]; rfl

include h3 in
theorem ev1_add (a b : H1) : ev1 w (hadd1 a b) = ev1 w a + ev1 w b := evL_add w (ev0_add h3) a b
include h3 in
theorem ev1_mul (a b : H1) : ev1 w (hmul1 a b) = ev1 w a * ev1 w b := evL_mul w (ev0_add h3) (ev0_mul h3) Nat.cast_zero a b
include h3 in
theorem ev2_add (a b : H2) : ev2 z w (hadd2 a b) = ev2 z w a + ev2 z w b := evL_add z (ev1_add h3 w) a b
include h3 in
theorem ev2_mul (a b : H2) : ev2 z w (hmul2 a b) = ev2 z w a * ev2 z w b := evL_mul z (ev1_add h3 w) (ev1_mul h3 w) rfl a b
include h3 in
theorem ev3_add (a b : H3) : ev3 y z w (hadd3 a b) = ev3 y z w a + ev3 y z w b := evL_add y (ev2_add h3 z w) a b
include h3 in
theorem ev3_mul (a b : H3) : ev3 y z w (hmul3 a b) = ev3 y z w a * ev3 y z w b :=
  evL_mul y (ev2_add h3 z w) (ev2_mul h3 z w) rfl a b
include h3 in
theorem ev4_add (a b : H4) : ev4 x y z w (hadd4 a b) = ev4 x y z w a + ev4 x y z w b := evL_add x (ev3_add h3 y z w) a b
include h3 in
theorem ev4_mul (a b : H4) : ev4 x y z w (hmul4 a b) = ev4 x y z w a * ev4 x y z w b :=
  evL_mul x (ev3_add h3 y z w) (ev3_mul h3 y z w) rfl a b

theorem ev4_zero (l : H4) (h : hzero4 l = true) : ev4 x y z w l = 0 :=
  evL_zero x (fun a ha => evL_zero y (fun b hb => evL_zero z (fun c hc => evL_zero w (fun k hk => by
    rw [beq_iff_eq] at hk; rw [hk, ev0, Nat.cast_zero]) c hc) b hb) a ha) l h

end

/-- `g_0 d_0 + .. + g_3 d_3 + r`. -/
def hcomb (g d : List H4) (r : H4) : H4 := (List.zipWith hmul4 g d).foldr hadd4 r

theorem hcomb_zero {L : Type} [CommRing L] (h3 : (3 : L) = 0) (x y z w : L) (r : H4) : ∀ (g d : List H4),
    (∀ a ∈ d, ev4 x y z w a = 0) → ev4 x y z w (hcomb g d r) = ev4 x y z w r
  | [], d, _ => by rw [hcomb, List.zipWith_nil_left, List.foldr_nil]
  | _ :: _, [], _ => by rw [hcomb, List.zipWith_nil_right, List.foldr_nil]
  | b :: g, a :: d, h => by
      rw [hcomb, List.zipWith_cons_cons, List.foldr_cons, ev4_add h3, ev4_mul h3, h a (by simp), mul_zero, zero_add]
      exact hcomb_zero h3 x y z w r g d (fun c hc => h c (by simp [hc]))

end Verif
