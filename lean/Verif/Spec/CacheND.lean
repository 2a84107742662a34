import Verif.Model.CacheND
import Verif.Spec.Cache

/-! Specification for the dictionaries of the non-degenerate object: the values of the calls without any
dictionary, and sequences of calls. -/

namespace Verif.Spec

variable {q : Nat} (solve : Solver (ZMod q)) (N : ND (ZMod q))

/-- All the inclusion matrices for `u`. -/
def inclsND (u : IVec) : Res (List (CMat (ZMod q))) :=
  (List.range N.n).mapM (fun l : Nat => do
    let BU ← solveND solve N.toDR ((l : Int) * N.d)
    inclNDWith N u l BU)

/-- `get_inclusion_matrix_ND(u, l)`: the code computes the matrices for all `l` to return one. -/
def getInclND (u : IVec) (l : Nat) : Res (CMat (ZMod q)) := do
  check (u.all (fun x => decide (0 < x)))
  check (decide (sumVec u = N.d))
  check (decide (l < N.n))
  let Ms ← inclsND solve N u
  aget Ms l

/-- The loops of `compute_coKernels_ND_to_basis(u)`. -/
def cokLoops (u : IVec) : Res (CMat (ZMod q) × Nat) := do
  let st ← forRange N.n ((CMat.mk' N.basis.length N.ndBasis.length (fun _ _ => 0), 0) : CMat (ZMod q) × Nat)
    (fun l st => do
      let A ← finalMatJ solve N.toDR (l + 1)
      let B ← getInclND solve N u l
      do
        let tmp ← A.mul B
        let M ← putBlock st.1 tmp st.2
        pure (M, st.2 + tmp.cols))
  let topJ ← solveJ solve N.toDR N.topLevel
  let BU ← solveND solve N.toDR ((N.d : Int) * N.n)
  let listF ← N.list ((N.d : Int) * N.n - 2 * N.n)
  let listL ← N.list ((N.d : Int) * N.n)
  let listH ← N.list ((N.d : Int) * N.n - (N.n + 1))
  let dictH ← N.dict ((N.d : Int) * N.n - (N.n + 1))
  let dictW ← N.dict N.topLevel
  forRange BU.1.length st (fun j st => do
    let b ← aget BU.1 j
    let mon ← aget listL b
    let H ← topColWith N topJ.2 listF listH dictH dictW u mon
    let M ← finalMatJ solve N.toDR N.n
    do
      let col ← M.mulVec H
      let M ← forRange col.len st.1 (fun i M => M.put i st.2 (col.e i))
      pure (M, st.2 + 1))

/-- `compute_coKernels_ND_to_basis(u)`. -/
def compCokND (u : IVec) : Res (CMat (ZMod q)) := do
  let r ← cokLoops solve N u
  pure r.1

/-- `get_coKernels_ND_to_basis(u)`. -/
def getCokND (u : IVec) : Res (CMat (ZMod q)) := do
  check (u.all (fun x => decide (0 < x)))
  check (decide (sumVec u = N.d))
  compCokND solve N u

/-- The iterator `compute_reduction_matrix_ND_poly_ZZ(v)` returns, `none` for `end()`. -/
def polyItND (v : IVec) : Res (Option (MonMap (CMat Int))) := do
  let E ← redMatNDPoly solve N v
  pure (if E.isEmpty then none else some (liftMap E))

/-- What `compute_everything_ND` computes for one `u`. -/
def everyND (u : IVec) : Res PUnit := do
  let _ ← redMatND solve N u
  let _ ← redMatNDPoly solve N u
  if u.all (fun x => decide (0 < x)) = true then do
    let _ ← inclsND solve N u
    let _ ← compCokND solve N u
    pure ()
  else pure ()

/-- A call of a method of `de_Rham_non_degenerate_local`, or of a Frobenius function of
`hypersurface_non_degenerate` with the given table of powers of `f`. -/
inductive NDCall (q : Nat)
  | base (c : JCall q)
  | solve (l : Int)
  | mat (u v : IVec)
  | matZ (u v : IVec)
  | red (u v : IVec) (G : CVec (ZMod q))
  | redPoly (u v : IVec) (k : Int) (G : CVec (ZMod q))
  | redZ (u v : IVec) (G : CVec Int)
  | redPolyZ (u v : IVec) (k : Int) (G : CVec Int)
  | polyFlint (u v : IVec)
  | incl (u : IVec) (l : Nat)
  | cok (u : IVec)
  | monomial (u : IVec)
  | everything (J ndZZ : Bool)
  | frobZ (p : Nat) (kind : LoopKind) (T : List (MonMap (ZMod q))) (coord prec : Nat)
  | frobP (p : Nat) (batched : Bool) (T : List (MonMap (ZMod q))) (coord prec : Nat)
  | frobFlint (p : Nat) (T : List (MonMap (ZMod q))) (coord prec : Nat)
  | frobMatrix (p : Nat) (pre : Bool) (order : List Nat) (T : List (MonMap (ZMod q))) (prec : List Int)

/-- What a call returns. -/
inductive NDOut (q : Nat)
  | base (x : JOut q)
  | pair (x : List Nat × CMat (ZMod q))
  | mat (M : CMat (ZMod q))
  | matZ (M : CMat Int)
  | vec (G : CVec (ZMod q))
  | vecZ (G : CVec Int)
  | polys (P : Nat → CMat Int)
  | frob (r : CVec (ZMod q) × List (MonMap (ZMod q)))
  | frobMat (r : CMat (ZMod q) × List (MonMap (ZMod q)))
  | unit

/-- The method called. -/
def NDCall.run (saveMemory : Bool) : NDCall q → NM q (NDOut q)
  | .base c => do let x ← NM.liftJ (c.run solve N.toDR saveMemory); pure (.base x)
  | .solve l => do let x ← cSolveND solve N l; pure (.pair x)
  | .mat u v => do let x ← cGetRedND solve N u v; pure (.mat x)
  | .matZ u v => do let x ← cGetRedNDZ solve N saveMemory u v; pure (.matZ x)
  | .red u v G => do let x ← cReduceND solve N u v G; pure (.vec x)
  | .redPoly u v k G => do let x ← cReduceNDPoly solve N saveMemory u v k G; pure (.vec x)
  | .redZ u v G => do let x ← cReduceNDZ solve N saveMemory u v G; pure (.vecZ x)
  | .redPolyZ u v k G => do let x ← cReduceNDPolyZ solve N saveMemory u v k G; pure (.vecZ x)
  | .polyFlint u v => do let x ← cGetNDPolyZ solve N saveMemory u v; pure (.polys x)
  | .incl u l => do let x ← cInclND solve N u l; pure (.mat x)
  | .cok u => do let x ← cCokND solve N u; pure (.mat x)
  | .monomial u => do let x ← cMonomialND solve N u; pure (.vec x)
  | .everything J ndZZ => do cEverythingND solve N saveMemory J ndZZ; pure .unit
  | .frobZ p kind T c k => do let x ← cFrobNDZ solve N saveMemory p kind T c k; pure (.frob x)
  | .frobP p b T c k => do let x ← cFrobNDP solve N saveMemory p b T c k; pure (.frob x)
  | .frobFlint p T c k => do let x ← cFrobNDFlint solve N saveMemory p T c k; pure (.frob x)
  | .frobMatrix p pre o T k => do let x ← cFrobMatrixND solve N saveMemory p pre o T k; pure (.frobMat x)

/-- A sequence of calls on one object: the values returned. -/
def runCallsND (saveMemory : Bool) : List (NDCall q) → NM q (List (NDOut q))
  | [] => pure []
  | c :: cs => do
      let x ← c.run solve N saveMemory
      let xs ← runCallsND saveMemory cs
      pure (x :: xs)

/-- The value the call returns on an object whose dictionaries are all empty. -/
def NDCall.fresh (saveMemory : Bool) (c : NDCall q) : Res (NDOut q) :=
  (c.run solve N saveMemory (NDCache.empty q)).map Prod.fst

/-- The value according to the functions without dictionaries. -/
def NDCall.value : NDCall q → Res (NDOut q)
  | .base c => do let x ← c.value solve N.toDR; pure (.base x)
  | .solve l => do let x ← solveND solve N.toDR l; pure (.pair x)
  | .mat u v => do let x ← getReductionMatrixND solve N u v; pure (.mat x)
  | .matZ u v => do let x ← getReductionMatrixNDZ solve N u v; pure (.matZ x)
  | .red u v G => do let x ← reduceVectorND solve N u v G; pure (.vec x)
  | .redPoly u v k G => do let x ← reduceVectorNDPoly solve N u v k G; pure (.vec x)
  | .redZ u v G => do let x ← reduceVectorNDZ solve N u v G; pure (.vecZ x)
  | .redPolyZ u v k G => do let x ← reduceVectorNDPolyZ solve N u v k G; pure (.vecZ x)
  | .polyFlint u v => do let x ← getNDPolyZ solve N u v; pure (.polys x)
  | .incl u l => do let x ← getInclND solve N u l; pure (.mat x)
  | .cok u => do let x ← cokernelsToBasis solve N u; pure (.mat x)
  | .monomial u => do let x ← monomialToBasisND solve N u; pure (.vec x)
  | .everything J _ => do
      if J then do
        let _ ← JCall.value solve N.toDR .everything
      let Ld ← N.list N.d
      Ld.forM (everyND solve N)
      pure .unit
  | .frobZ p kind T c k => do let x ← frobNDZ solve N p kind T c k; pure (.frob x)
  | .frobP p b T c k => do let x ← frobNDP solve N p b T c k; pure (.frob x)
  | .frobFlint p T c k => do let x ← frobNDFlint solve N p T c k; pure (.frob x)
  | .frobMatrix p pre o T k => do
      check (decide (N.n = k.length))
      if pre then do
        let Ld ← N.list N.d
        Ld.forM (everyND solve N)
      let x ← frobMatrixND solve N p pre o T k
      pure (.frobMat x)

end Verif.Spec
