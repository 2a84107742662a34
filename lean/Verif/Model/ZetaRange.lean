import Verif.Model.ZetaI64

/-!
`zeta_function` with the products of machine integers it computes itself in 64 bits: `p * (i + N[i]) - 1` in the choice of the precision
and `p*100 + 100`, the number of matrices tried.
-/

namespace Verif

/-- `p * (i + N[i]) - 1` (wrapper/zeta_function.cc:72, 86); as `raisePrec`. -/
def raisePrec64 (p : Nat) (i : Nat) (r N precision : Int) : Res Int := do
  let s ← i64 (i + N)
  let a ← i64 (p * s)
  let b ← i64 (a - 1)
  let v ← valFact b p
  .ok (max precision (r + max 0 (v - i)))

/-- The loop of the branch `increase_precision_to_deduce_zeta` (wrapper/zeta_function.cc:68-73). -/
def incrStep64 (p : Nat) (n abs : Int) (i : Nat) (s : PrecSt) : Res PrecSt := do
  let ri ← aget s.r i
  let ri := max ri (abs - (n - 1) + i)
  let Ni ← aget s.N i
  check (decide (ri + n - (i + 1) ≥ Ni))
  let Ni := ri + n - (i + 1)
  let precision ← raisePrec64 p i ri Ni s.precision
  let r ← aset s.r i ri
  let N ← aset s.N i Ni
  .ok ⟨r, N, precision, s.lift⟩

/-- The loop of the other branch (wrapper/zeta_function.cc:76-88). -/
def absStep64 (p : Nat) (n abs : Int) (i : Nat) (s : PrecSt) : Res PrecSt := do
  let rel := abs - (n - 1) + i
  let ri ← aget s.r i
  let lift := s.lift && decide (rel ≥ ri)
  if rel ≤ 0 then do
    let r ← aset s.r i 0
    let N ← aset s.N i 0
    .ok ⟨r, N, s.precision, lift⟩
  else do
    let Ni := rel + n - (i + 1)
    let precision ← raisePrec64 p i rel Ni s.precision
    let r ← aset s.r i rel
    let N ← aset s.N i Ni
    .ok ⟨r, N, precision, lift⟩

/-- Lines 52-98 of wrapper/zeta_function.cc; as `choosePrec`. -/
def choosePrec64 (p : Nat) (n d abs : Int) (increase : Bool) : Res ZetaPrec := do
  let a ← defaultArgs p n d
  if 0 < abs then do
    let r ← (List.range n.toNat).mapM (fun i => do
      let Ni ← aget a.N i
      .ok (Ni + ((i : Int) + 1) - n))
    let s ←
      if increase then forRange n.toNat (⟨r, a.N, a.precision, true⟩ : PrecSt) (incrStep64 p n abs)
      else forRange n.toNat (⟨r, a.N, 1, true⟩ : PrecSt) (absStep64 p n abs)
    check (decide (abs ≤ s.precision))
    let m ← maxVec s.r
    if (p : Int) < 2 * n + m then .error .abort
    else .ok ⟨s.precision, s.N, a.charpolyPrec, s.lift⟩
  else .ok ⟨a.precision, a.N, a.charpolyPrec, true⟩

/-- Lines 112-133 of wrapper/zeta_function.cc; as `chooseModel`. -/
def chooseModel64 {p : Nat} [Fact p.Prime] (la : RankDet (ZMod p)) (rnd : Rnd (ZMod p)) (t q : Nat) (better : Bool)
    (fp : MonMap (ZMod p)) (fq : MonMap (ZMod q)) : Res (Option (Bool × MonMap (ZMod q))) := do
  let smooth ← isSmooth la q fp
  if smooth then do
    let nd ← isND la q fp
    if !nd && better then do
      let a ← i64 ((p : Int) * 100)
      let b ← i64 (a + 100)
      match ← findChangeOfVariables la q rnd t fp b with
      | none => .ok none
      | some (M, _) =>
          if isZeroMat M then .ok (some (false, fq))
          else do
            let g ← changeOfVariables fq (liftMat q M)
            .ok (some (true, g))
    else .ok (some (nd, fq))
  else .error .abort

/-- `zeta_function` (wrapper/zeta_function.cc:28-172) in 64 bits; as `zetaMain`, with the Frobenius functions of `frobRoutine64`. -/
def zetaMain64 (p : Nat) [Fact p.Prime] (la : RankDet (ZMod p)) (rnd : Rnd (ZMod p)) (t : Nat) (frob : FrobRoutine p)
    (f : MonMap Int) (abs : Int) (increase better : Bool) : Res (Option (List Int × CMat Int)) :=
  match f with
  | [] => .error .ub
  | (k, _) :: _ => do
      let n : Int := (k.length : Int) - 1
      let d ← sumVec64 k
      let z ← choosePrec64 p n d abs increase
      let q := p ^ z.precision.toNat
      match ← chooseModel64 la rnd t q better (reduceCoeffs p f) (reduceCoeffs q f) with
      | none => .ok none
      | some (nd, g) => do
          let F ← frob z.precision.toNat nd g z.N
          check (decide (F.1 + 1 = z.charpolyPrec.length))
          let cp ← zetaPoly p n abs z (repMat F.2)
          .ok (some (cp, repMat F.2))

end Verif
