import Verif.Core.Res
import Mathlib.Tactic.Ring

/-!
Two places where the code manages memory by hand: the name of the swap file in `save` (dr/save.cc:13-15,
dr_nd/dr_nd.cc:251-253) and the modulus in `frob_ND_flint` (hypersurface_nd/hypersurface_nd.cc:456-777).
-/

namespace Verif

/-! ### The name of the swap file -/

/-- A `char` array of a given size.  Reading or writing elsewhere is undefined behaviour. -/
structure CharBuf where
  size : Nat
  byte : Nat → Nat

def CharBuf.read (b : CharBuf) (i : Nat) : Res Nat := if i < b.size then .ok (b.byte i) else .error .ub

def CharBuf.write (b : CharBuf) (i c : Nat) : Res CharBuf :=
  if i < b.size then .ok ⟨b.size, fun j => if j = i then c else b.byte j⟩ else .error .ub

/-- `strcpy` to position `i` of the array: the characters of `s` and the terminating 0. -/
def strcpyAt (b : CharBuf) (i : Nat) : List Nat → Res CharBuf
  | [] => b.write i 0
  | c :: s => do
      let b ← b.write i c
      strcpyAt b (i + 1) s

/-- Position of the terminating 0 from `i` on, `k` characters to look at. -/
def findNul (b : CharBuf) : Nat → Nat → Res Nat
  | 0, _ => .error .ub
  | k + 1, i => do
      let c ← b.read i
      if c = 0 then .ok i else findNul b k (i + 1)

/-- `strcat`: find the end, copy there. -/
def strcat (b : CharBuf) (s : List Nat) : Res CharBuf := do
  let i ← findNul b b.size 0
  strcpyAt b i s

/-- `".swp"`. -/
def swpSuffix : List Nat := [46, 115, 119, 112]

/-- `char fileswpname[sizeof(filename)+4]; strcpy(fileswpname, filename); strcat(fileswpname,".swp");`
(dr/save.cc:13-15, dr_nd/dr_nd.cc:251-253).  `filename` is a `const char *`, so `sizeof` is the size of a pointer,
8 bytes on the 64-bit platforms the code assumes.  `junk` is the content of the array before. -/
def swpName (ptrSize : Nat) (junk : Nat → Nat) (filename : List Nat) : Res CharBuf := do
  let b ← strcpyAt ⟨ptrSize + 4, junk⟩ 0 filename
  strcat b swpSuffix

/-! ### The modulus of `frob_ND_flint` -/

/-- An `fmpz` variable: values up to `2^62 - 1` in absolute value are kept in the word itself, others in an
allocated `mpz`, which `fmpz_clear` frees (leaving the word as it is). -/
inductive FmpzVar where
  | small
  | big
  | dangling
  deriving DecidableEq, Repr

/-- `fmpz_init` and `conv` (hypersurface_nd/hypersurface_nd.cc:473-475). -/
def FmpzVar.init (modulus : Nat) : FmpzVar := if modulus < 2 ^ 62 then .small else .big

/-- Reading the variable. -/
def FmpzVar.use : FmpzVar → Res FmpzVar
  | .small => .ok .small
  | .big => .ok .big
  | .dangling => .error .ub

/-- `fmpz_clear`. -/
def FmpzVar.clear : FmpzVar → Res FmpzVar
  | .small => .ok .small
  | .big => .ok .dangling
  | .dangling => .error .ub

/-- `k` uses of the modulus by `reduce_vector_ND_poly_flint` (hypersurface_nd/hypersurface_nd.cc:618-620 with
several threads, 714 with one). -/
def useTimes : Nat → FmpzVar → Res FmpzVar
  | 0, s => .ok s
  | k + 1, s => do
      let s ← s.use
      useTimes k s

/-- The passes of the loop over `e` (hypersurface_nd/hypersurface_nd.cc:505-749): the terms of the pass use
the modulus; the branch for several threads then clears it (line 653), the other branch does not. -/
def lifeLoop (threads : Nat) : List Nat → FmpzVar → Res FmpzVar
  | [], s => .ok s
  | k :: ks, s => do
      let s ← useTimes k s
      let s ← if 1 < threads then s.clear else .ok s
      lifeLoop threads ks s

/-- The life of the modulus in `frob_ND_flint` (hypersurface_nd/hypersurface_nd.cc:473-475, 505-750): `terms` has one
entry for each of the `m + N - 1` passes, the number of terms reduced in it. -/
def modulusLife (threads modulus : Nat) (terms : List Nat) : Res FmpzVar := do
  let s ← lifeLoop threads terms (FmpzVar.init modulus)
  s.clear

end Verif
