import Verif.Model.Cache
import Verif.Model.FrobND

/-!
Model of the dictionaries of `de_Rham_non_degenerate_local` (dr_nd.h:27-75: `solve_ND`,
`reduction_matrix_ND_dict`, `..._ZZ_dict`, `..._poly_dict`, `..._poly_ZZ_dict`, `inclusion_matrix_ND_dict`,
`coKernels_ND_to_basis_dict`), with those of `de_Rham_local` that the class inherits: the methods as the code
has them, looking a result up first and storing it after computing it, and the Frobenius functions that call
them.

`ZZ_p` is `ZMod q`.  The object `N` itself does not change after the constructor.
-/

namespace Verif

/-- The dictionaries. -/
structure NDCache (q : Nat) where
  j : JCache q
  solveD : List (Int × (List Nat × CMat (ZMod q)))
  redD : MonMap (MonMap (CMat (ZMod q)))
  redZD : MonMap (MonMap (CMat Int))
  polyD : MonMap (MonMap (CMat (ZMod q)))
  polyZD : MonMap (MonMap (CMat Int))
  inclD : MonMap (List (CMat (ZMod q)))
  cokD : MonMap (CMat (ZMod q))

/-- The dictionaries of a new object (the constructor has already filled some of `solve_J` and `solve_ND`;
starting with none only makes more calls compute). -/
def NDCache.empty (q : Nat) : NDCache q := ⟨JCache.empty q, [], [], [], [], [], [], []⟩

/-- A method: it may change the dictionaries and may stop the program. -/
abbrev NM (q : Nat) := StateT (NDCache q) (Except Fail)

/-- A computation that does not touch the dictionaries. -/
def NM.pureRes {q : Nat} {α : Type} (x : Res α) : NM q α := fun st =>
  match x with
  | .ok a => .ok (a, st)
  | .error e => .error e

/-- A method of the base class. -/
def NM.liftJ {q : Nat} {α : Type} (x : JM q α) : NM q α := fun st =>
  match x st.j with
  | .ok (a, j') => .ok (a, { st with j := j' })
  | .error e => .error e

/-- `for (i = 0; i < n; i++)` with a body that uses the dictionaries. -/
def forRangeN {q : Nat} {σ : Type} : Nat → σ → (Nat → σ → NM q σ) → NM q σ
  | 0, s, _ => pure s
  | n + 1, s, f => do
      let s' ← forRangeN n s f
      f n s'

section

variable {q : Nat} (solve : Solver (ZMod q)) (N : ND (ZMod q)) (saveMemory : Bool)

/-- `get_solve_ND(level)` (dr_nd/dr_nd.cc:358-382). -/
def cSolveND (l : Int) : NM q (List Nat × CMat (ZMod q)) := fun st =>
  match st.solveD.lookup l with
  | some x => .ok (x, st)
  | none =>
      match solveND solve N.toDR l with
      | .ok x => .ok (x, { st with solveD := (l, x) :: st.solveD })
      | .error e => .error e

/-! ### The reduction matrices -/

/-- The loops of `compute_reduction_matrix_ND(v)` once the pairs `solve[0..n]` are known
(dr_nd/dr_nd.cc:877-1069). -/
def redNDWith (solves : List (List Nat × CMat (ZMod q))) (v : IVec) : Res (MonMap (CMat (ZMod q))) := do
  let res ← forRange N.ndBasis.length [] (fun col res => ndColumn N solves v col res)
  pure (res.filter (fun e => !e.2.isZero))

/-- `compute_reduction_matrix_ND(v)` (dr_nd/dr_nd.cc:863-1072).  The empty map entered for `v` at the start is
not seen by anything before the function returns. -/
def cRedND (v : IVec) : NM q (MonMap (CMat (ZMod q))) := fun st =>
  match st.redD.find? v with
  | some Ms => .ok (Ms, st)
  | none => (do
      NM.pureRes (check (decide (sumVec v = N.d)))
      let low ← (List.range N.n).mapM (fun i : Nat => cSolveND solve N (((i : Int) + 1) * N.d))
      let top ← cSolveND solve N N.topND
      let Ms ← NM.pureRes (redNDWith N (low ++ [top]) v)
      modify (fun st => { st with redD := st.redD.set v Ms })
      pure Ms : NM q _) st

/-- `conv` of every matrix of a map. -/
def liftMap (Ms : MonMap (CMat (ZMod q))) : MonMap (CMat Int) := Ms.map (fun e => (e.1, e.2.map liftZ))

/-- `existQ`, `compute_reduction_matrix_ND(v)` when absent, `body`, and `erase(v)` when it was absent and
`save_memory` (dr_nd/dr_nd.cc:1088-1097, 1118-1123, 1173-1174). -/
def withRedND {α : Type} (v : IVec) (body : MonMap (CMat (ZMod q)) → NM q α) : NM q α := fun st =>
  match st.redD.find? v with
  | some Ms => body Ms st
  | none => (do
      let Ms ← cRedND solve N v
      let r ← body Ms
      if saveMemory then modify (fun st => { st with redD := st.redD.erase v })
      pure r : NM q _) st

/-- `compute_reduction_matrix_ND_ZZ(v)` (dr_nd/dr_nd.cc:1074-1100). -/
def cRedNDZ (v : IVec) : NM q (MonMap (CMat Int)) := fun st =>
  match st.redZD.find? v with
  | some Ms => .ok (Ms, st)
  | none => withRedND solve N saveMemory v (fun Ms => do
      modify (fun st => { st with redZD := st.redZD.set v (liftMap Ms) })
      pure (liftMap Ms)) st

/-- The loops of `compute_reduction_matrix_ND_poly(v)` (dr_nd/dr_nd.cc:1134-1172). -/
def polyNDWith (v : IVec) (Ms : MonMap (CMat (ZMod q))) : Res (MonMap (CMat (ZMod q))) := do
  let res ← Ms.foldlM (fun res e => do
    let mons ← changeOfVariablesMonomial e.1 v
    expandInto N.ndBasis.length (decide (headSum (N.n + 1) e.1 = N.n + 1)) e.2 mons res) []
  .ok (res.filter (fun e => !e.2.isZero))

/-- `compute_reduction_matrix_ND_poly(v)` (dr_nd/dr_nd.cc:1106-1178). -/
def cPolyND (v : IVec) : NM q (MonMap (CMat (ZMod q))) := fun st =>
  match st.polyD.find? v with
  | some E => .ok (E, st)
  | none => withRedND solve N saveMemory v (fun Ms => do
      let E ← NM.pureRes (polyNDWith N v Ms)
      modify (fun st => { st with polyD := st.polyD.set v E })
      pure E) st

/-- Enter the converted matrices one by one under `dict[v]`: with none to enter there is no entry for `v`
(dr_nd/dr_nd.cc:1202-1203). -/
def enterPolyZ (v : IVec) (E : MonMap (CMat (ZMod q))) : NM q Unit :=
  if E.isEmpty then pure () else modify (fun st => { st with polyZD := st.polyZD.set v (liftMap E) })

/-- `compute_reduction_matrix_ND_poly_ZZ(v)` (dr_nd/dr_nd.cc:1180-1212); the iterator returned is `none` when it is
`end()`. -/
def cPolyNDZ (v : IVec) : NM q (Option (MonMap (CMat Int))) := fun st =>
  match st.polyZD.find? v with
  | some E => .ok (some E, st)
  | none =>
      match st.polyD.find? v with
      | some E => (do
          enterPolyZ v E
          let st ← get
          pure (st.polyZD.find? v) : NM q _) st
      | none => (do
          let E ← cPolyND solve N saveMemory v
          enterPolyZ v E
          if saveMemory then modify (fun st => { st with polyD := st.polyD.erase v })
          let st ← get
          pure (st.polyZD.find? v) : NM q _) st

/-- `it->second`. -/
def derefN {α : Type} : Option α → NM q α
  | some a => pure a
  | none => NM.pureRes (.error .ub)

/-! ### The methods that use them -/

/-- `get_reduction_matrix_ND(u, v)` (dr_nd/dr_nd.cc:384-418). -/
def cGetRedND (u v : IVec) : NM q (CMat (ZMod q)) := do
  NM.pureRes (checkND N u v)
  let Ms ← cRedND solve N v
  NM.pureRes (Ms.foldlM (fun (M : CMat (ZMod q)) e =>
    if e.2.rows = M.rows ∧ e.2.cols = M.cols then
      .ok (CMat.mk' M.rows M.cols (fun i j => M.e i j + ((ndMon N.n u e.1 : Int) : ZMod q) * e.2.e i j))
    else .error .abort) (CMat.mk' N.ndBasis.length N.ndBasis.length (fun _ _ => 0)))

/-- `reduce_vector_ND(result, u, v, G)` (dr_nd/dr_nd.cc:455-488). -/
def cReduceND (u v : IVec) (G : CVec (ZMod q)) : NM q (CVec (ZMod q)) := do
  NM.pureRes (checkND N u v)
  let Ms ← cRedND solve N v
  NM.pureRes (Ms.foldlM (fun (H : CVec (ZMod q)) e => do
    let T ← e.2.mulVec (CVec.mk' G.len (fun i => ((ndMon N.n u e.1 : Int) : ZMod q) * G.e i))
    if T.len = H.len then .ok (CVec.mk' H.len (fun i => H.e i + T.e i)) else .error .abort)
    (CVec.mk' N.ndBasis.length (fun _ => 0)))

/-- `get_reduction_matrix_ND_ZZ(u, v)` (dr_nd/dr_nd.cc:420-453). -/
def cGetRedNDZ (u v : IVec) : NM q (CMat Int) := do
  NM.pureRes (checkND N u v)
  let Ms ← cRedNDZ solve N saveMemory v
  NM.pureRes (Ms.foldlM (fun (M : CMat Int) e =>
    if e.2.rows = M.rows ∧ e.2.cols = M.cols then
      .ok (CMat.mk' M.rows M.cols (fun i j => M.e i j + (ndMon N.n u e.1 % (q : Int)) * e.2.e i j))
    else .error .abort) (CMat.mk' N.ndBasis.length N.ndBasis.length (fun _ _ => 0)))

/-- `reduce_vector_ND_ZZ(result, u, v, G)` (dr_nd/dr_nd.cc:490-522). -/
def cReduceNDZ (u v : IVec) (G : CVec Int) : NM q (CVec Int) := do
  NM.pureRes (checkND N u v)
  let Ms ← cRedNDZ solve N saveMemory v
  NM.pureRes (match Ms with
  | [] => .error .ub
  | e :: rest => do
      let H ← ndTermZ N.n u G e
      rest.foldlM (fun (H : CVec Int) e => do
        let T ← ndTermZ N.n u G e
        if T.len = H.len then .ok (CVec.mk' H.len (fun i => H.e i + T.e i)) else .error .abort) H)

/-- `reduce_vector_ND_poly(result, u, v, iterations, G)` (dr_nd/dr_nd.cc:524-595). -/
def cReduceNDPoly (u v : IVec) (k : Int) (G : CVec (ZMod q)) : NM q (CVec (ZMod q)) := do
  NM.pureRes (checkND N u v)
  let E ← cPolyND solve N saveMemory v
  NM.pureRes (do
    let poly ← ndPolys N.n N.ndBasis.length u E
    if k < 0 then .error .ub else ndPolyLoop id N.n poly k.toNat G)

/-- `get_ND_poly_flint(result, u, v)` (dr_nd/dr_nd.cc:688-744), and the first part of
`reduce_vector_ND_poly_ZZ` (dr_nd/dr_nd.cc:604-653). -/
def cGetNDPolyZ (u v : IVec) : NM q (Nat → CMat Int) := do
  NM.pureRes (check (decide (v.length = N.n + 1)))
  NM.pureRes (check (decide (u.length = N.n + 1)))
  NM.pureRes (checkND N u v)
  let it ← cPolyNDZ solve N saveMemory v
  let E ← derefN it
  NM.pureRes (do
    let poly ← ndPolys N.n N.ndBasis.length u E
    .ok (fun i => (poly i).map (· % (q : Int))))

/-- `reduce_vector_ND_poly_ZZ(result, u, v, iterations, G)` (dr_nd/dr_nd.cc:600-686). -/
def cReduceNDPolyZ (u v : IVec) (k : Int) (G : CVec Int) : NM q (CVec Int) := do
  let poly ← cGetNDPolyZ solve N saveMemory u v
  NM.pureRes (if k < 0 then .error .ub else ndPolyLoop (· % (q : Int)) N.n poly k.toNat G)

/-! ### The way to the cohomology basis -/

/-- One matrix of `compute_inclusion_matrix_ND(u)` once `get_solve_ND(l d)` is known (dr_nd/dr_nd.cc:1270-1273). -/
def inclNDWith (u : IVec) (l : Nat) (BU : List Nat × CMat (ZMod q)) : Res (CMat (ZMod q)) := do
  let listL ← N.list ((l : Int) * N.d)
  let listG ← N.list (((l : Int) + 1) * N.d - (N.n + 1))
  let dictG ← N.dict (((l : Int) + 1) * N.d - (N.n + 1))
  forRange BU.1.length (CMat.mk' listG.length BU.1.length (fun _ _ => 0)) (fun j M => do
    let b ← aget BU.1 j
    let t ← aget listL b
    let w ← addVec t (u.map (· - 1))
    let row ← look dictG w
    M.put row j 1)

/-- `compute_inclusion_matrix_ND(u)` (dr_nd/dr_nd.cc:1245-1275): the matrices for all `l < n`. -/
def cCompInclND (u : IVec) : NM q Unit := fun st =>
  match st.inclD.find? u with
  | some _ => .error .assertFail
  | none => (do
      let Ms ← (List.range N.n).mapM (fun l : Nat => do
        let BU ← cSolveND solve N ((l : Int) * N.d)
        NM.pureRes (inclNDWith N u l BU))
      modify (fun st => { st with inclD := st.inclD.set u Ms }) : NM q Unit) st

/-- `it = dict.find(u); if (it == end()) { compute(u); it = dict.find(u); }`, `it->second`. -/
def lookOrCompute {α : Type} (dict : NDCache q → MonMap α) (comp : NM q Unit) (u : IVec) : NM q α := do
  let st ← get
  match (dict st).find? u with
  | some M => pure M
  | none => do
      comp
      let st ← get
      derefN ((dict st).find? u)

/-- `get_inclusion_matrix_ND(u, l)` (dr_nd/dr_nd.cc:1217-1241). -/
def cInclND (u : IVec) (l : Nat) : NM q (CMat (ZMod q)) := do
  NM.pureRes (check (u.all (fun x => decide (0 < x))))
  NM.pureRes (check (decide (sumVec u = N.d)))
  NM.pureRes (check (decide (l < N.n)))
  let Ms ← lookOrCompute NDCache.inclD (cCompInclND solve N u) u
  NM.pureRes (aget Ms l)

/-- `H` for one monomial of degree `n d` (dr_nd/dr_nd.cc:1370-1391). -/
def topColWith (topJ : CMat (ZMod q)) (listF listH : List IVec) (dictH dictW : MonMap Nat) (u mon : IVec) :
    Res (CVec (ZMod q)) := do
  let tt ← tweak mon N.n
  let a ← subVec mon tt
  let w ← addVec tt (u.map (· - 1))
  let c ← look dictW w
  let F ← topJ.colVec c
  ndDeriv N.n listF listH dictH a F

/-- The loops of `compute_coKernels_ND_to_basis(u)` (dr_nd/dr_nd.cc:1337-1397); the state is `result` and `pos`. -/
def cCokLoops (u : IVec) : NM q (CMat (ZMod q) × Nat) := do
  let st ← forRangeN N.n ((CMat.mk' N.basis.length N.ndBasis.length (fun _ _ => 0), 0) : CMat (ZMod q) × Nat)
    (fun l st => do
      let A ← NM.liftJ (cFinalJ solve N.toDR (l + 1))
      let B ← cInclND solve N u l
      NM.pureRes (do
        let tmp ← A.mul B
        let M ← putBlock st.1 tmp st.2
        pure (M, st.2 + tmp.cols)))
  let topJ ← NM.liftJ (cSolveJ solve N.toDR N.topLevel)
  let BU ← cSolveND solve N ((N.d : Int) * N.n)
  let listF ← NM.pureRes (N.list ((N.d : Int) * N.n - 2 * N.n))
  let listL ← NM.pureRes (N.list ((N.d : Int) * N.n))
  let listH ← NM.pureRes (N.list ((N.d : Int) * N.n - (N.n + 1)))
  let dictH ← NM.pureRes (N.dict ((N.d : Int) * N.n - (N.n + 1)))
  let dictW ← NM.pureRes (N.dict N.topLevel)
  forRangeN BU.1.length st (fun j st => do
    let b ← NM.pureRes (aget BU.1 j)
    let mon ← NM.pureRes (aget listL b)
    let H ← NM.pureRes (topColWith N topJ.2 listF listH dictH dictW u mon)
    let M ← NM.liftJ (cFinalJ solve N.toDR N.n)
    NM.pureRes (do
      let col ← M.mulVec H
      let M ← forRange col.len st.1 (fun i M => M.put i st.2 (col.e i))
      pure (M, st.2 + 1)))

/-- `compute_coKernels_ND_to_basis(u)` (dr_nd/dr_nd.cc:1304-1398). -/
def cCompCokND (u : IVec) : NM q Unit := fun st =>
  match st.cokD.find? u with
  | some _ => .error .assertFail
  | none => (do
      let r ← cCokLoops solve N u
      modify (fun st => { st with cokD := st.cokD.set u r.1 }) : NM q Unit) st

/-- `get_coKernels_ND_to_basis(u)` (dr_nd/dr_nd.cc:1277-1301). -/
def cCokND (u : IVec) : NM q (CMat (ZMod q)) := do
  NM.pureRes (check (u.all (fun x => decide (0 < x))))
  NM.pureRes (check (decide (sumVec u = N.d)))
  lookOrCompute NDCache.cokD (cCompCokND solve N u) u

/-- The loop of `monomial_to_basis_ND` (dr_nd/dr_nd.cc:1467-1492). -/
def cMtbLoopND : Nat → IVec → CVec (ZMod q) → NM q (IVec × CVec (ZMod q))
  | 0, u, G => pure (u, G)
  | cnt + 1, u, G => do
      let v ← NM.pureRes (directionND N.d u)
      let u' ← NM.pureRes (subVec u v)
      let G' ← cReduceND solve N u' v G
      cMtbLoopND cnt u' G'

/-- `monomial_to_basis_ND(u)` (dr_nd/dr_nd.cc:1443-1500). -/
def cMonomialND (u : IVec) : NM q (CVec (ZMod q)) := do
  NM.pureRes (check (decide (u.length = N.n + 1)))
  NM.pureRes (check (u.all (fun x => decide (0 < x))))
  if N.d = 0 then NM.pureRes (.error .ub)
  else do
    NM.pureRes (check (decide (sumVec u % N.d = 0)))
    if N.ndBasis.length = 0 then NM.pureRes (.error .ub)
    else do
      let st ← cMtbLoopND solve N (sumVec u / N.d - 1).toNat u (CVec.unit N.ndBasis.length 0)
      NM.pureRes (check (decide (sumVec st.1 = N.d)))
      let M ← cCokND solve N st.1
      NM.pureRes (M.mulVec st.2)

/-! ### compute_everything_ND -/

/-- `if (positive && dict.find(u) == dict.end()) compute(u)` (dr_nd/dr_nd.cc:337-351). -/
def fillIf {α : Type} (dict : NDCache q → MonMap α) (comp : IVec → NM q Unit) (u : IVec) : NM q Unit := do
  let st ← get
  if u.all (fun x => decide (0 < x)) = true ∧ ((dict st).find? u).isNone = true then comp u else pure ()

/-- The body of the loop (dr_nd/dr_nd.cc:325-354). -/
def cEveryND (ndZZ : Bool) (u : IVec) : NM q Unit := do
  let _ ← cRedND solve N u
  if ndZZ then do
    let _ ← cRedNDZ solve N saveMemory u
  let _ ← cPolyND solve N saveMemory u
  let _ ← cPolyNDZ solve N saveMemory u
  fillIf NDCache.inclD (cCompInclND solve N) u
  fillIf NDCache.cokD (cCompCokND solve N) u

/-- `compute_everything_ND(J, ND_ZZ)` (dr_nd/dr_nd.cc:319-356). -/
def cEverythingND (J ndZZ : Bool) : NM q Unit := do
  if J then NM.liftJ (cEverythingJ solve N.toDR saveMemory)
  let Ld ← NM.pureRes (N.list N.d)
  Ld.forM (cEveryND solve N saveMemory ndZZ)

/-! ### The Frobenius functions -/

/-- The reduction of one term, for each of the three functions: as `NDVar.term`, with the dictionaries. -/
abbrev CTerm (q : Nat) := Nat → IVec → IVec → CVec (ZMod q) → NM q (IVec × CVec (ZMod q))

/-- `for (i = 0; i < end; i++) { dest = dest - v; ... }`; as `ndSteps`. -/
def cNdSteps {V : Type} (one : IVec → V → NM q V) (v : IVec) : Nat → IVec → V → NM q (IVec × V)
  | 0, dest, G => pure (dest, G)
  | cnt + 1, dest, G => do
      let dest' ← NM.pureRes (subVec dest v)
      let G' ← one dest' G
      cNdSteps one v cnt dest' G'

/-- As `ndBatched`. -/
def cNdBatched {V : Type} (batch : IVec → IVec → Int → V → NM q V) (p last : Nat) (u v : IVec) (G : V) :
    NM q (IVec × V) := do
  let dest ← NM.pureRes (subVec (mulVec p u) (mulVec last v))
  let G' ← batch dest v last G
  pure (dest, G')

/-- The reductions of `frob_ND_ZZ_p` (hypersurface_nd/hypersurface_nd.cc:393-408). -/
def cTermNDP (p : Nat) (batched : Bool) : CTerm q := fun last u v G =>
  if batched then cNdBatched (fun a b k G => cReduceNDPoly solve N saveMemory a b k G) p last u v G
  else cNdSteps (fun dest G => do
    let M ← cGetRedND solve N dest v
    NM.pureRes (M.mulVec G)) v last (mulVec p u) G

/-- One reduction over `ZZ`; as `oneNDZ`. -/
def cOneNDZ (kind : LoopKind) (v dest : IVec) (G : CVec Int) : NM q (CVec Int) :=
  match kind with
  | .mat => do
      let M ← cGetRedNDZ solve N saveMemory dest v
      NM.pureRes (M.mulVec G)
  | _ => do
      let H ← cReduceNDZ solve N saveMemory dest v G
      NM.pureRes (if H.len < G.len then .error .ub else pure (CVec.mk' G.len (fun i => H.e i % (q : Int))))

/-- The reductions of `frob_ND_ZZ` (hypersurface_nd/hypersurface_nd.cc:196-224). -/
def cTermNDZ (p : Nat) (kind : LoopKind) : CTerm q := fun last u v G => do
  let r ← (if kind = .poly then cNdBatched (fun a b k G => cReduceNDPolyZ solve N saveMemory a b k G) p last u v
      (CVec.mk' G.len (fun i => liftZ (G.e i)))
    else cNdSteps (cOneNDZ solve N saveMemory kind v) v last (mulVec p u) (CVec.mk' G.len (fun i => liftZ (G.e i))))
  pure (r.1, CVec.mk' r.2.len (fun i => ((r.2.e i : Int) : ZMod q)))

/-- The reductions of `frob_ND_flint` (hypersurface_nd/hypersurface_nd.cc:705-716). -/
def cTermNDFlint (p : Nat) : CTerm q := fun last u v G => do
  let r ← cNdBatched (fun a b k G => do
    let poly ← cGetNDPolyZ solve N saveMemory a b
    NM.pureRes (reduceVectorNDPolyFlint q N.n poly k G)) p last u v (CVec.mk' G.len (fun i => liftZ (G.e i)))
  pure (r.1, CVec.mk' r.2.len (fun i => ((r.2.e i : Int) : ZMod q)))

/-- The reduction of one term, and where the result goes; as `frobTermND`. -/
def cFrobTermND (var : NDVar (ZMod q)) (term : CTerm q) (p e m : Nat) (ei : IVec)
    (s : MonMap (CVec (ZMod q)) × CVec (ZMod q)) (t : IVec × CVec (ZMod q)) :
    NM q (MonMap (CVec (ZMod q)) × CVec (ZMod q)) := do
  let v ← NM.pureRes (if 1 < e then var.dir e m ei t.1 else .ok t.1)
  let r ← term (if 1 < e then p else p - 1) t.1 v t.2
  if r.2.isZero then pure s
  else if 1 < e then
    NM.pureRes (do
      let y ← subVec t.1 v
      check (decide (mulVec p y = r.1))
      let H ← accTerm s.1 y r.2
      pure (H, s.2))
  else do
    NM.pureRes (check (!var.assertLast || decide (r.1 = t.1)))
    let M ← cCokND solve N t.1
    NM.pureRes (do
      let g ← M.mulVec r.2
      let F ← s.2.add g
      pure (s.1, F))

/-- One pass of the loop over `e`; as `frobPassND`. -/
def cFrobPassND (var : NDVar (ZMod q)) (term : CTerm q) (p : Nat) (T : List (MonMap (ZMod q))) (ei : IVec)
    (m prec e : Nat) (st : FrobState (ZMod q)) : NM q (FrobState (ZMod q)) := do
  let H ← NM.pureRes (frobNewND var N T ei m prec e st)
  let s ← H.foldlM (cFrobTermND solve N var term p e m ei) ([], st.last)
  pure ⟨factStep p e st.fact, s.1, s.2⟩

/-- `for (e = m + N - 1; e != 0; e--)`; as `downTo`. -/
def cDownTo {σ : Type} (body : Nat → σ → NM q σ) : Nat → σ → NM q σ
  | 0, s => pure s
  | e + 1, s => do
      let s' ← body (e + 1) s
      cDownTo body e s'

/-- A Frobenius function; as `frobFunND`. -/
def cFrobFunND (var : NDVar (ZMod q)) (term : CTerm q)
    (scale : Nat → Nat → Nat → CVec (ZMod q) → Res (CVec (ZMod q))) (p : Nat)
    (T : List (MonMap (ZMod q))) (coord prec : Nat) : NM q (CVec (ZMod q) × List (MonMap (ZMod q))) := do
  NM.pureRes (check (decide (0 < prec)))
  let ei ← NM.pureRes (aget N.basis coord)
  let T' ← NM.pureRes (computeFpow N.f T ((prec : Int) - 1))
  if N.d = 0 ∨ p = 0 then NM.pureRes (.error .ub)
  else do
    let st ← cDownTo (cFrobPassND solve N var term p T' ei ((sumVec ei + N.n + 1) / N.d).toNat prec)
      (((sumVec ei + N.n + 1) / N.d).toNat + prec - 1) ⟨1, [], CVec.mk' N.basis.length (fun _ => 0)⟩
    NM.pureRes (do
      let F' ← scale p N.n (p * (((sumVec ei + N.n + 1) / N.d).toNat + prec - 1) - 1) st.last
      pure (F', T'))

/-- `frob_ND_ZZ(coordinate, N, loop)`. -/
def cFrobNDZ (p : Nat) (kind : LoopKind) (T : List (MonMap (ZMod q))) (coord prec : Nat) :=
  cFrobFunND solve N (varNDZ solve N p kind) (cTermNDZ solve N saveMemory p kind) frobScale p T coord prec

/-- `frob_ND_ZZ_p(coordinate, N, loop)`. -/
def cFrobNDP (p : Nat) (batched : Bool) (T : List (MonMap (ZMod q))) (coord prec : Nat) :=
  cFrobFunND solve N (varNDP solve N p batched) (cTermNDP solve N saveMemory p batched) frobScale p T coord prec

/-- `frob_ND_flint(coordinate, N)`. -/
def cFrobNDFlint (p : Nat) (T : List (MonMap (ZMod q))) (coord prec : Nat) :=
  cFrobFunND solve N (varNDFlint solve N p) (cTermNDFlint solve N saveMemory p) frobScalePAdic p T coord prec

/-- One iteration of `frob_matrix_ND`; as `frobIterND`. -/
def cFrobIterND (p : Nat) (prec : List Int) (s : List (MonMap (ZMod q)) × (Nat → CVec (ZMod q))) (i : Nat) :
    NM q (List (MonMap (ZMod q)) × (Nat → CVec (ZMod q))) := do
  let b ← NM.pureRes (aget N.basis i)
  if N.d = 0 then NM.pureRes (.error .ub)
  else do
    let Ni ← NM.pureRes (iget prec ((sumVec b + N.n + 1) / N.d - 1))
    if 0 < Ni then do
      let r ← cFrobNDFlint solve N saveMemory p s.1 i Ni.toNat
      NM.pureRes (if r.1.len = N.basis.length then pure (r.2, upd s.2 i r.1) else .error .abort)
    else pure s

/-- `frob_matrix_ND(N)` (hypersurface_nd/hypersurface_nd.cc:779-825); as `frobMatrixND`, with
`compute_everything_ND(false, false)` before the loop when there are several threads. -/
def cFrobMatrixND (p : Nat) (pre : Bool) (order : List Nat) (T : List (MonMap (ZMod q))) (prec : List Int) :
    NM q (CMat (ZMod q) × List (MonMap (ZMod q))) := do
  NM.pureRes (check (decide (N.n = prec.length)))
  if pre then cEverythingND solve N saveMemory false false
  let T0 ← NM.pureRes (frobPrepare pre N.f T prec)
  let s ← order.foldlM (cFrobIterND solve N saveMemory p prec) (T0, fun _ => CVec.mk' N.basis.length (fun _ => 0))
  pure (⟨N.basis.length, N.basis.length, fun r c => (s.2 c).e r⟩, s.1)

end

end Verif
