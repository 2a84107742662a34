import Verif.Model.NDPaths

/-!
The random choices of `test_paths_J` (dr/test_paths_J.cc:33-96) and `test_paths_ND` (dr_nd/dr_nd.cc:1595-1653), which
`testPathsJ` and `testPathsND` take as arguments.

`rnd k` is the number delivered by call number `k` of `RandomBnd`; `RandomBnd(m)` is that number modulo `m`.  `t` bounds the
number of passes of every `while`, `none` means that a loop is still running after them.  The choices do not depend on
the matrices, so here they are all made before the first matrix is computed.
-/

namespace Verif

section

variable (rnd : Nat → Nat)

/-- `while( sum % d != r ) { k = RandomBnd(n+1); u_orig[k]++; sum++; }` (dr/test_paths_J.cc:40-45;
dr_nd/dr_nd.cc:1602-1607). -/
def bumpLoop (n d r : Nat) : Nat → Nat → IVec → Int → Res (Option (IVec × Nat))
  | 0, _, _, _ => .ok none
  | t + 1, pos, u, sum =>
      if sum % d ≠ r then do
        let k := rnd pos % (n + 1)
        let x ← aget u k
        let u ← aset u k (x + 1)
        bumpLoop n d r t (pos + 1) u (sum + 1)
      else .ok (some (u, pos))

/-- The starting point of an attempt (dr/test_paths_J.cc:33-45 with `base = 0`, `r = n`; dr_nd/dr_nd.cc:1595-1607
with `base = 1`, `r = 0`). -/
def drawStart (n d r : Nat) (base : Int) (t pos : Nat) : Res (Option (IVec × Nat)) :=
  let u : IVec := (List.range (n + 1)).map (fun i => base + ((rnd (pos + i) % 20 : Nat) : Int))
  bumpLoop rnd n d r t (pos + (n + 1)) u (sumVec u)

/-- `while( sum < d)` (dr/test_paths_J.cc:73-81; dr_nd/dr_nd.cc:1631-1639); `may u v` is the condition under which
`v[k]` is raised. -/
def growLoop (may : Int → Int → Bool) (n d : Nat) (u : IVec) : Nat → Nat → IVec → Int → Res (Option (IVec × Nat))
  | 0, _, _, _ => .ok none
  | t + 1, pos, v, sum =>
      if sum < d then do
        let k := rnd pos % (n + 1)
        let x ← aget u k
        let y ← aget v k
        if may x y then do
          let v ← aset v k (y + 1)
          growLoop may n d u t (pos + 1) v (sum + 1)
        else growLoop may n d u t (pos + 1) v sum
      else .ok (some (v, pos))

/-- A direction of `test_paths_J` (dr/test_paths_J.cc:62-81): 1 where `u` is positive, then random steps. -/
def drawDirJ (n d : Nat) (t pos : Nat) (u : IVec) : Res (Option (IVec × Nat)) :=
  let v := u.map (fun x => if x > 0 then (1 : Int) else 0)
  growLoop rnd (fun x y => decide (x > 0) && decide (y < x)) n d u t pos v (sumVec v)

/-- A direction of `test_paths_ND` (dr_nd/dr_nd.cc:1627-1639). -/
def drawDirND (n d : Nat) (t pos : Nat) (u : IVec) : Res (Option (IVec × Nat)) :=
  growLoop rnd (fun x y => decide (x > y + 1)) n d u t pos (List.replicate (n + 1) 0) 0

/-- `while( sum_u > low)` (dr/test_paths_J.cc:56-87 with `low = n`; dr_nd/dr_nd.cc:1619-1645 with `low = d`): the
directions. -/
def drawPath (dir : Nat → IVec → Res (Option (IVec × Nat))) (d : Nat) (low : Int) :
    Nat → Nat → IVec → Int → Res (Option (List IVec × Nat))
  | 0, _, _, _ => .ok none
  | t + 1, pos, u, sumU =>
      if sumU > low then do
        match ← dir pos u with
        | none => .ok none
        | some (v, pos) => do
            let u ← subVec u v
            match ← drawPath dir d low t pos u (sumU - d) with
            | none => .ok none
            | some (vs, pos) => .ok (some (v :: vs, pos))
      else .ok (some ([], pos))

/-- `paths` paths from `u` (dr/test_paths_J.cc:48-96; dr_nd/dr_nd.cc:1610-1653). -/
def drawPaths (dir : Nat → IVec → Res (Option (IVec × Nat))) (d : Nat) (low : Int) (t : Nat) (u : IVec) :
    Nat → Nat → Res (Option (List (List IVec) × Nat))
  | 0, pos => .ok (some ([], pos))
  | c + 1, pos => do
      match ← drawPath dir d low t pos u (sumVec u) with
      | none => .ok none
      | some (vs, pos) => do
          match ← drawPaths dir d low t u c pos with
          | none => .ok none
          | some (l, pos) => .ok (some (vs :: l, pos))

/-- `trials` attempts (dr/test_paths_J.cc:27-97; dr_nd/dr_nd.cc:1589-1654). -/
def drawAttempts (start : Nat → Res (Option (IVec × Nat))) (dir : Nat → IVec → Res (Option (IVec × Nat))) (d : Nat)
    (low : Int) (t paths : Nat) : Nat → Nat → Res (Option (List (IVec × List (List IVec))))
  | 0, _ => .ok (some [])
  | c + 1, pos => do
      match ← start pos with
      | none => .ok none
      | some (u, pos) => do
          match ← drawPaths dir d low t u paths pos with
          | none => .ok none
          | some (l, pos) => do
              match ← drawAttempts start dir d low t paths c pos with
              | none => .ok none
              | some rest => .ok (some ((u, l) :: rest))

variable {R : Type} [CommRing R] [DecidableEq R]

/-- `test_paths_J(trials, paths)` (dr/test_paths_J.cc:10-99). -/
def testPathsRndJ (solve : Solver R) (D : DR R) (t trials paths : Nat) : Res (Option Bool) := do
  check (decide (trials > 0))
  check (decide (paths > 0))
  match ← drawAttempts (drawStart rnd D.n D.d D.n 0 t) (drawDirJ rnd D.n D.d t) D.d D.n t paths trials 0 with
  | none => .ok none
  | some att => do
      let b ← testPathsJ solve D att
      .ok (some b)

/-- `test_paths_ND(trials, paths)` for non-negative arguments (dr_nd/dr_nd.cc:1574-1656). -/
def testPathsRndND (solve : Solver R) (N : ND R) (t trials paths : Nat) : Res (Option Bool) := do
  check (decide (trials ≠ 0))
  check (decide (paths ≠ 0))
  match ← drawAttempts (drawStart rnd N.n N.d 0 1 t) (drawDirND rnd N.n N.d t) N.d N.d t paths trials 0 with
  | none => .ok none
  | some att => do
      let b ← testPathsND solve N att
      .ok (some b)

end

end Verif
