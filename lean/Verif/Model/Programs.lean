import Verif.Model.Pipeline
import Verif.Model.Construct
import Verif.Model.Picard
import Verif.Model.Save

/-!
Models of the programs `examples/frob.cc` and `examples/K3_dwork.cc`.

Left out: the command line, opening the files, the messages on the screen, and the two running times, which
are arbitrary texts here.  A negative `n` or `d` in the input is not modelled (`ub`).  `p` is a prime once the polynomial is used;
the programs do not check it.
-/

namespace Verif

/-! ### examples/frob.cc: the input -/

/-- What is read from the input file.  `Vec<zz_p>` is read as integers, which are reduced modulo `p`. -/
structure FrobInput where
  p : Int
  precision : Int
  n : Int
  d : Int
  f : List Int
  N : List Int
  absPrec : List Int
  deriving DecidableEq

/-- The table for quartic surfaces: `precision` and the text of `buffer` (examples/frob.cc:99-131). -/
def k3Buffer (p : Int) : Res (Int × Str) :=
  if p = 3 then
    .ok (16, "[7 7 8]\n[24 23 22 21 20 19 18 17 16 15 14 13 12 11 10 9 8 7 6 5 5 5]".toList)
  else if p = 5 then
    .ok (9, "[4 5 5]\n[23 22 21 20 19 18 17 16 15 14 13 12 11 10 9 8 7 6 5 4 4 4]".toList)
  else if 6 < p ∧ p < 20 then
    .ok (6, "[4 4 3]\n[23 22 21 20 19 18 17 16 15 14 13 12 11 10 9 8 7 6 5 4 3 3]".toList)
  else if 20 < p ∧ p < 42 then
    .ok (5, "[3 3 3]\n[22 21 20 19 18 17 16 15 14 13 12 11 10 9 8 7 6 5 4 3 3 3]".toList)
  else do
    check (decide (p > 42))
    .ok (4, "[3 3 2]\n[22 21 20 19 18 17 16 15 14 13 12 11 10 9 8 7 6 5 4 3 2 2]".toList)

/-- `zz_p::init(p); ZZ_p::init(power_ZZ(p, precision))` (examples/frob.cc:139-140): NTL stops when a modulus is
less than 2, or the exponent negative. -/
def initModuli (p precision : Int) : Res Unit := do
  if p < 2 then .error .abort
  else do
    let q ← powerZZ p.toNat precision
    if q < 2 then .error .abort else .ok ()

/-- Lines 89-164 of examples/frob.cc: the lines of the file are counted, and with fewer than seven newlines the file is taken for
that of a quartic surface. -/
def readFrobInput (s : Str) : Res FrobInput := do
  let numberoflines := s.count '\n'
  let p ← readInt s
  if numberoflines < 7 then do
    let b ← k3Buffer p.1
    initModuli p.1 b.1
    let f ← readVec readInt p.2
    let N ← readVec readInt b.2
    let a ← readVec readInt N.2
    .ok ⟨p.1, b.1, 3, 4, f.1, N.1, a.1⟩
  else do
    let precision ← readInt p.2
    let n ← readInt precision.2
    let d ← readInt n.2
    initModuli p.1 precision.1
    let f ← readVec readInt d.2
    let N ← readVec readInt f.2
    let a ← readVec readInt N.2
    .ok ⟨p.1, precision.1, n.1, d.1, f.1, N.1, a.1⟩

/-! ### examples/frob.cc: the computation -/

/-- What is computed: `M`, `f_vector`, `Frob`, `cp` and `rank`. -/
structure FrobOutput (p q : Nat) where
  M : CMat (ZMod p)
  f : List (ZMod p)
  Frob : CMat (ZMod q)
  cp : List Int
  rank : Int

/-- `f_original_map` (examples/frob.cc:171-176): the non-zero coefficients, at the monomials of degree `d`. -/
def originalMap {p : Nat} (tupleD : List IVec) (v : List (ZMod p)) : MonMap (ZMod p) :=
  MonMap.setAll [] ((tupleD.zip v).filter (fun e => decide (e.2 ≠ 0)))

/-- `f_vector[ tuple_d_dict[ fit->first ] ] = fit->second` for the terms of `f_map` (examples/frob.cc:201-204).  `operator[]` of
the map returns 0 for a key which is not there. -/
def vectorOf {p : Nat} (len : Nat) (dict : MonMap Nat) (f : MonMap (ZMod p)) : Res (List (ZMod p)) :=
  f.foldlM (fun v e => aset v ((MonMap.find? dict e.1).getD 0) e.2) (List.replicate len 0)

/-- Lines 166-228 of examples/frob.cc for a prime `p`; `none` when the random search is
still running after `t` passes, or a loop of `geometric_picard` after `t'`.  `frob` is given the
polynomial over `Z/p^precision` which the constructors make of `f_map`.  In the program the assertion about the
length of `absolute_precision` comes between the constructor and `frob_matrix_ND`, `frob_matrix_J`. -/
noncomputable def frobProgram (p : Nat) [Fact p.Prime] (la : RankDet (ZMod p)) (rnd : Rnd (ZMod p)) (t t' : Nat)
    (frob : FrobRoutine p) (cmp : Nat → Nat → Bool) (factor : Polynomial ℤ → List (Polynomial ℤ × Nat)) (tries : Int)
    (precision n d : Int) (f N absPrec : List Int) : Res (Option (FrobOutput p (p ^ precision.toNat))) :=
  if n < 0 ∨ d < 0 then .error .ub
  else do
    let q := p ^ precision.toNat
    let v : List (ZMod p) := f.map (fun c : Int => (c : ZMod p))
    let tupleD ← tupleListGenerator d (n.toNat + 1)
    check (decide (tupleD.length = v.length))
    let original := originalMap tupleD v
    let dict := buildDict tupleD
    let smooth ← isSmooth la q original
    if smooth then do
      match ← findChangeOfVariables la q rnd t original tries with
      | none => .ok none
      | some (M, _) => do
          let nd := !isZeroMat M
          let g ← (if nd then changeOfVariables original M else .ok original : Res (MonMap (ZMod p)))
          let F ← frob precision.toNat nd (naiveLift q g) N
          check (decide (F.1 + 1 = absPrec.length))
          let fv ← vectorOf v.length dict g
          let cp ← charpolyFrob (repMat F.2) absPrec p (n - 1).toNat
          if n = 3 ∧ d = 4 then do
            match ← geometricPicard cmp factor cp p (n - 1) t' with
            | none => .ok none
            | some rank => .ok (some ⟨M, fv, F.2, cp, rank⟩)
          else .ok (some ⟨M, fv, F.2, cp, 0⟩)
    else .error .abort

/-! ### examples/frob.cc: the output -/

/-- The text written to the output file (examples/frob.cc:254-267). -/
def frobText {p q : Nat} (x : FrobInput) (y : FrobOutput p q) (wall user : Str) : Str :=
  showInt x.p ++ '\n' :: (showInt x.precision ++ '\n' :: (showInt x.n ++ '\n' :: (showInt x.d ++ '\n' ::
  (showVec showMod (x.f.map (fun c : Int => (c : ZMod p))) ++ '\n' :: (showVec showInt x.N ++ '\n' ::
  (showVec showInt x.absPrec ++ '\n' :: (showMat showMod (matRows y.M) ++ '\n' :: (showVec showMod y.f ++ '\n' ::
  (showMat showMod (matRows y.Frob) ++ '\n' :: (showVec showInt y.cp ++ '\n' :: (showInt y.rank ++ '\n' ::
  (wall ++ '\n' :: (user ++ ['\n'])))))))))))))

/-! ### examples/K3_dwork.cc -/

/-- `f` of examples/K3_dwork.cc:46-55: `x_0^4 + .. + x_3^4 + lambda x_0 x_1 x_2 x_3`. -/
def dworkMap {R : Type} [One R] (lambda : R) : MonMap R :=
  MonMap.set (MonMap.setAll [] ((List.range 4).map (fun i => ((List.replicate 4 (0 : Int)).set i 4, 1))))
    (List.replicate 4 1) lambda

/-- Lines 36-75 of examples/K3_dwork.cc for a prime `p`: the characteristic polynomial.  When the surface is not smooth a message is
printed and the program goes on. -/
def dworkProgram (p : Nat) [Fact p.Prime] (la : RankDet (ZMod p)) (frob : FrobRoutine p) (lambda : Int) : Res (List Int) := do
  let a ← defaultArgs p 3 4
  let q := p ^ a.precision.toNat
  let f : MonMap (ZMod p) := dworkMap (lambda : ZMod p)
  let _ ← isSmooth la q f
  let F ← frob a.precision.toNat true (naiveLift q f) a.N
  charpolyFrob (repMat F.2) a.charpolyPrec p 2

/-- examples/K3_dwork2.cc:35-50: the same surface given to `zeta_function` with verbose output and the other options left at
their default values (wrapper.h:17-27). -/
def dwork2Program (p : Nat) [Fact p.Prime] (la : RankDet (ZMod p)) (rnd : Rnd (ZMod p)) (t : Nat) (frob : FrobRoutine p)
    (lambda : Int) : Res (Option (List Int × CMat Int)) :=
  zetaMain p la rnd t frob (dworkMap lambda) 0 true true

end Verif
