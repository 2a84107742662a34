import Verif.Model.Matrix

/-!
Model of `solve_system/solve_system.cc`.

The elimination and inversion routines of NTL and FLINT are not part of the code; they enter as a
parameter (`LinAlg`), with the contract `Spec.LinAlgOK`.
-/

namespace Verif

/-- The routines of NTL / FLINT used by `solve_system_zz_p`: `gauss` (NTL) or `nmod_mat_lu` (FLINT),
which bring a matrix to row echelon form and return its rank, and `inv` / `nmod_mat_inv`. -/
structure LinAlg (F : Type) where
  gauss : CMat F → CMat F × Nat
  inv : CMat F → Res (CMat F)

/-- `while (z(j) && j < n) j++` with `fuel = n - j`: the first `j` with `z j` false, or `n`. -/
def scan (z : Nat → Bool) : (fuel j : Nat) → Nat
  | 0, j => j
  | fuel + 1, j => if z j then scan z fuel (j + 1) else j

/-- Transpose. -/
def CMat.tr {R : Type} (A : CMat R) : CMat R := ⟨A.cols, A.rows, fun i j => A.e j i⟩

/-- The identity of size `n`. -/
def CMat.one {R : Type} [Zero R] [One R] (n : Nat) : CMat R :=
  CMat.mk' n n (fun i j => if i = j then 1 else 0)

/-- The pivot columns read off the echelon form (solve_system/solve_system.cc:69-79, 228-238).  The
code tests `E[i][j] == 0` before `j < ncols`, so running off the row is an out-of-bounds read. -/
def pivotCols {F : Type} [Zero F] [DecidableEq F] (E : CMat F) (rank : Nat) : Res (List Nat) := do
  let st ← forRange rank ((0 : Nat), ([] : List Nat)) (fun i st =>
    let j := scan (fun j => decide (E.e i j = 0)) (E.cols - st.1) st.1
    if E.cols ≤ j then .error .ub else .ok (j + 1, st.2 ++ [j]))
  pure st.2

/-- The nonpivot columns of the echelon form `E` of the transpose
(solve_system/solve_system.cc:103-121, 259-277).  `B` has length `len = nrows - rank`; writing past
its end is undefined, and so is leaving an entry unset. -/
def nonPivots {F : Type} [Zero F] [DecidableEq F] (E : CMat F) (len : Nat) : Res (List Nat) := do
  let st ← forRange E.rows ((0 : Nat), ([] : List Nat)) (fun i st =>
    let j := scan (fun j => decide (E.e i j = 0)) (E.cols - st.1) st.1
    .ok (j + 1, st.2 ++ List.range' st.1 (j - st.1)))
  let B := st.2 ++ List.range' st.1 (E.cols - st.1)
  if B.length = len then pure B else .error .ub

/-- Assign row `a` of `U`. -/
def CMat.setRow {R : Type} (U : CMat R) (a : Nat) (f : Nat → R) : Res (CMat R) :=
  if a < U.rows then
    .ok ⟨U.rows, U.cols, fun i j => if i = a ∧ j < U.cols then f j else U.e i j⟩
  else .error .ub

/-- `Y`: pivot columns of `T`, then the unit vectors of `B`
(solve_system/solve_system.cc:84-93, 123-128 and 240-249, 278-283).  `rank` is the number of pivot
columns. -/
def solveY {F : Type} [Zero F] [One F] (T : CMat F) (piv B : List Nat) (rank : Nat) : CMat F :=
  CMat.mk' T.rows T.rows (fun j i =>
    if i < rank then T.e j (piv.getD i 0) else if j = B.getD (i - rank) 0 then 1 else 0)

/-- `U` from `Z = Y^-1` (solve_system/solve_system.cc:140-158, 290-309). -/
def solveU {F : Type} [Zero F] (T Z : CMat F) (piv : List Nat) (rank : Nat) : Res (CMat F) := do
  let U0 := CMat.mk' (T.cols + T.rows - rank) T.rows (fun _ _ => (0 : F))
  let U1 ← forRange rank U0 (fun i U => U.setRow (piv.getD i 0) (Z.e i))
  forRange (T.rows - rank) U1 (fun i U => U.setRow (T.cols - rank + (rank + i)) (Z.e (rank + i)))

/-- `solve_system_zz_p_flint` (`flint = true`, solve_system/solve_system.cc:13-160) and
`solve_system_zz_p_NTL` (`flint = false`, 176-310).  Only the FLINT version asserts that the two
ranks agree.  `Y` uses the rank of `T` for the pivot columns and the rank of the transpose for the
unit vectors; they agree by the contract. -/
def solveSystemZZp {F : Type} [Zero F] [One F] [DecidableEq F] (la : LinAlg F) (flint : Bool)
    (T : CMat F) : Res (List Nat × CMat F) :=
  if T.cols = 0 then .ok (List.range T.rows, CMat.one T.rows)
  else do
    let piv ← pivotCols (la.gauss T).1 (la.gauss T).2
    let rank := (la.gauss T.tr).2
    check (!flint || decide (rank = piv.length))
    let B ← nonPivots (la.gauss T.tr).1 (T.rows - rank)
    let Z ← la.inv (solveY T piv B rank)
    let U ← solveU T Z piv rank
    pure (B, U)

/-! ### lifting to `Z/p^N` -/

/-- `X = (T | J)` (solve_system/solve_system.cc:362-376, 421-434, 526-537). -/
def augmentC {R : Type} [Zero R] [One R] (T : CMat R) (B : List Nat) : CMat R :=
  CMat.mk' T.rows (T.cols + B.length) (fun i j =>
    if j < T.cols then T.e i j else if i = B.getD (j - T.cols) 0 then 1 else 0)

/-- One Newton step `U = 2U - U*(X*U)` (solve_system/solve_system.cc:400-404, 458-462, 551-559). -/
def newtonStep {R : Type} [CommRing R] (X U : CMat R) : CMat R :=
  let XU := CMat.mk' X.rows U.cols (fun i j => sumLoop X.cols (fun k => X.e i k * U.e k j))
  let UXU := CMat.mk' U.rows XU.cols (fun i j => sumLoop U.cols (fun k => U.e i k * XU.e k j))
  CMat.mk' U.rows U.cols (fun i j => 2 * U.e i j - UXU.e i j)

/-- `j = 1; while (j < precision) { U = 2U - UXU; j *= 2; }` from a given `j`; each pass at least
doubles `j`, so `precision` passes are enough. -/
def newtonLift {R : Type} [CommRing R] (X : CMat R) (precision : Nat) : (fuel j : Nat) → CMat R → CMat R
  | 0, _, U => U
  | fuel + 1, j, U =>
    if j < precision then newtonLift X precision fuel (2 * j) (newtonStep X U) else U

/-- The same loop over the integers, with the entries of `U` reduced modulo a growing modulus
(solve_system/solve_system.cc:455-472). -/
def newtonLiftZ (X : CMat Int) (precision : Nat) : (fuel j : Nat) → Int → CMat Int → CMat Int
  | 0, _, _, U => U
  | fuel + 1, j, m, U =>
    if j < precision then
      let U' := newtonStep X U
      if 2 * j < precision then
        newtonLiftZ X precision fuel (2 * j) (m * m)
          (CMat.mk' U'.rows U'.cols (fun l k => U'.e l k % (m * m)))
      else newtonLiftZ X precision fuel (2 * j) m U'
    else U

/-- Apply `f` to every entry. -/
def CMat.map {R S : Type} [Zero S] (f : R → S) (A : CMat R) : CMat S :=
  CMat.mk' A.rows A.cols (fun i j => f (A.e i j))

/-- `solve_system_padic(B, U, T, precision, flint)` over `ZZ_p = Z/p^N`
(solve_system/solve_system.cc:331-576).  `solve_system_padic_NTL` works in `ZZ_p`;
`solve_system_padic_flint` works modulo `p^N` in machine words when `p^N < 2^63` (360-416, again
exact arithmetic modulo `p^N`, see Model/SolveWords) and over the integers otherwise (417-480).  The test `(ulong) modulus ==
ZZ_p::modulus()` compares a `long` with a `ZZ`, so it fails from `2^63` on; nothing below depends on this. -/
def solveSystemPadic {p N : Nat} (la : LinAlg (ZMod p)) (flint : Bool) (T : CMat (ZMod (p ^ N)))
    (precision : Nat) : Res (List Nat × CMat (ZMod (p ^ N))) :=
  if T.cols = 0 then .ok (List.range T.rows, CMat.one T.rows)
  else do
    let (B, UFp) ← solveSystemZZp la true (T.map (fun x => (x.val : ZMod p)))
    if flint && decide (2 ^ 63 ≤ p ^ N) then
      let X := augmentC (T.map (fun x => (x.val : Int))) B
      let U := newtonLiftZ X precision precision 1 p (UFp.map (fun x => (x.val : Int)))
      pure (B, U.map (fun x : Int => (x : ZMod (p ^ N))))
    else
      let X := augmentC T B
      pure (B, newtonLift X precision precision 1 (UFp.map (fun x => ((x.val : Nat) : ZMod (p ^ N)))))

end Verif
