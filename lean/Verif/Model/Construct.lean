import Verif.Model.ND
import Verif.Model.SolveSystem

/-!
The overloads of the constructors of `de_Rham_local` (dr/constructors.cc:7-93) and of
`de_Rham_non_degenerate_local` (dr_nd/dr_nd.cc:20-102).

The constructors of `hypersurface` (hypersurface/constructors.cc:23-56) and `hypersurface_non_degenerate`
(hypersurface_nd/hypersurface_nd.cc:17-49) pass their arguments to these and copy `p`, `precision`, `n`, `d`.
`zz_p` is `ZMod p`, `ZZ_p` is `ZMod q`.  The member `fbar` is not modelled here.
-/

namespace Verif

/-- `f_map[ tuple_d[i] ] = f_vector[i]` for the monomials of degree `d`, after the comparison of the lengths
(dr/constructors.cc:12-18, 36-43; dr_nd/dr_nd.cc:21-27, 47-53). -/
def vecMap {R : Type} (n d : Nat) (v : List R) : Res (MonMap R) := do
  let tupleD ← tupleListGenerator (d : Int) (n + 1)
  check (decide (tupleD.length = v.length))
  .ok (MonMap.setAll [] (tupleD.zip v))

/-- `f[it->first] = rep(it->second)` (dr/constructors.cc:27-30; dr_nd/dr_nd.cc:37-40). -/
def naiveLift {p : Nat} (q : Nat) (fbar : MonMap (ZMod p)) : MonMap (ZMod q) :=
  MonMap.setAll [] (fbar.map (fun e => (e.1, ((e.2.val : Nat) : ZMod q))))

section

variable {p q : Nat} (solve : Solver (ZMod q))

/-- `de_Rham_local(p, precision, n, d, Vec<ZZ_p>)` (dr/constructors.cc:11-21). -/
def DR.ofVec (p : Nat) (n d : Nat) (v : List (ZMod q)) : Res (DR (ZMod q)) := do
  let f ← vecMap n d v
  DR.init solve p f

/-- `de_Rham_local(p, precision, map<Vec, zz_p>)` (dr/constructors.cc:24-32). -/
def DR.ofBar (fbar : MonMap (ZMod p)) : Res (DR (ZMod q)) := DR.init solve p (naiveLift q fbar)

/-- `de_Rham_local(p, precision, n, d, Vec<zz_p>)` (dr/constructors.cc:34-47). -/
def DR.ofBarVec (n d : Nat) (v : List (ZMod p)) : Res (DR (ZMod q)) := do
  let f ← vecMap n d (v.map (fun c => ((c.val : Nat) : ZMod q)))
  DR.init solve p f

/-- The four constructors of `de_Rham_non_degenerate_local` (dr_nd/dr_nd.cc:20-57). -/
def ND.ofVec (p : Nat) (n d : Nat) (v : List (ZMod q)) : Res (ND (ZMod q)) := do
  let f ← vecMap n d v
  ND.init solve p f

def ND.ofBar (fbar : MonMap (ZMod p)) : Res (ND (ZMod q)) := ND.init solve p (naiveLift q fbar)

def ND.ofBarVec (n d : Nat) (v : List (ZMod p)) : Res (ND (ZMod q)) := do
  let f ← vecMap n d (v.map (fun c => ((c.val : Nat) : ZMod q)))
  ND.init solve p f

/-! ### The random constructors -/

/-- `x = random_zz_p(); f[ tuple_list[d][i] ] = rep(x)` for all `i` (dr/constructors.cc:76-82; dr_nd/dr_nd.cc:86-92):
the numbers drawn are `rnd pos`, `rnd (pos + 1)`, ... -/
def drawPass (q : Nat) (rnd : Nat → ZMod p) (L : List IVec) (pos : Nat) (f : MonMap (ZMod q)) : MonMap (ZMod q) :=
  MonMap.setAll f (L.zip ((List.range L.length).map (fun i => (((rnd (pos + i)).val : Nat) : ZMod q))))

/-- The loop `while(boolean)` (dr/constructors.cc:73-85; dr_nd/dr_nd.cc:83-95); `t` bounds the number of passes, `none`
means the loop is still running after them. -/
def drawLoop (test : MonMap (ZMod q) → Res Bool) (rnd : Nat → ZMod p) (L : List IVec) :
    Nat → Nat → MonMap (ZMod q) → Res (Option (MonMap (ZMod q)))
  | 0, _, _ => .ok none
  | t + 1, pos, f => do
      let g := drawPass q rnd L pos f
      let again ← test g
      if again then drawLoop test rnd L t (pos + L.length) g else .ok (some g)

/-- `de_Rham_local(p, precision, n, d)` (dr/constructors.cc:49-93).  `solve1` is the solver during the loop, when
the member `precision` is 1. -/
def DR.random (solve1 : Solver (ZMod q)) (rnd : Nat → ZMod p) (t n d : Nat) : Res (Option (DR (ZMod q))) := do
  let tl ← tupleTables n d
  let L ← iget tl d
  let r ← drawLoop (fun f => do
    let BU ← solveJ solve1 ⟨n, d, f, tl, tl.map buildDict, [], []⟩ (((d : Int) - 2) * (n + 1) + 1)
    .ok (decide (BU.1.length ≠ 0))) rnd L t 0 []
  match r with
  | none => .ok none
  | some f => do
      let D ← DR.init solve p f
      .ok (some D)

/-- `de_Rham_non_degenerate_local(p, precision, n, d)` (dr_nd/dr_nd.cc:59-102). -/
def ND.random (solve1 : Solver (ZMod q)) (rnd : Nat → ZMod p) (t n d : Nat) : Res (Option (ND (ZMod q))) := do
  let tl ← tupleTables n d
  let L ← iget tl d
  let r ← drawLoop (fun f => do
    let BU ← solveND solve1 ⟨n, d, f, tl, tl.map buildDict, [], []⟩ (((d : Int) - 1) * (n + 1) + 1)
    .ok (decide (BU.1.length ≠ 0))) rnd L t 0 []
  match r with
  | none => .ok none
  | some f => do
      let D ← ND.init solve p f
      .ok (some D)

end

end Verif
