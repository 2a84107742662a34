import Verif.Model.FrobND

/-!
The Frobenius functions of `hypersurface_non_degenerate` with the exponent vectors in 64 bits: every sum, difference and multiple of
exponent vectors (`Vec<int64_t>`), the sum of the entries that a reduction takes, and the products `p * e` are computed with
`int64_t`, and a result outside the range is undefined behaviour.  Everything else is as in Model/FrobND.
-/

namespace Verif

/-- The vector, if all entries are in the range of `int64_t`. -/
def fit64 (v : IVec) : Res IVec :=
  if v.all (fun x => decide (-2 ^ 63 ≤ x ∧ x < 2 ^ 63)) then .ok v else .error .ub

/-- `operator+` (vec_int64.h:52-59, 94-99). -/
def addVec64 (v w : IVec) : Res IVec := do
  let r ← addVec v w
  fit64 r

/-- `operator-` (vec_int64.h:61-68, 101-106). -/
def subVec64 (v w : IVec) : Res IVec := do
  let r ← subVec v w
  fit64 r

/-- `operator*` of a number and a vector (vec_int64.h:43-49, 108-113). -/
def mulVec64 (c : Int) (v : IVec) : Res IVec := fit64 (mulVec c v)

/-- `sum += u[i]` at the start of a reduction (dr_nd/dr_nd.cc:390-398, 426-434, 459-467, 494-502, 530-538). -/
def sumVec64 (v : IVec) : Res Int := v.foldlM (fun s x => i64 (s + x)) 0

section

variable {V : Type}

/-- `for (i = 0; i < end; i++) { dest = dest - v; ... }` (hypersurface_nd/hypersurface_nd.cc:207-221, 401-406); as `ndSteps`. -/
def ndSteps64 (one : IVec → V → Res V) (v : IVec) : Nat → IVec → V → Res (IVec × V)
  | 0, dest, G => .ok (dest, G)
  | cnt + 1, dest, G => do
      let dest' ← subVec64 dest v
      let _ ← sumVec64 dest'
      let G' ← one dest' G
      ndSteps64 one v cnt dest' G'

/-- `dest = p * u - end * v` (hypersurface_nd/hypersurface_nd.cc:203-204, 397-398, 706-714); as `ndBatched`. -/
def ndBatched64 (batch : IVec → IVec → Int → V → Res V) (p last : Nat) (u v : IVec) (G : V) :
    Res (IVec × V) := do
  let a ← mulVec64 p u
  let b ← mulVec64 last v
  let dest ← subVec64 a b
  let _ ← sumVec64 dest
  let G' ← batch dest v last G
  pure (dest, G')

end

section

variable {R : Type} [CommRing R] [DecidableEq R]

/-- The new terms with pole order `p e` (hypersurface_nd/hypersurface_nd.cc:134-140, 331-337, 523-534). -/
def addTermsND64 (var : NDVar R) (N : ND R) (ei : IVec) (Dj : Int) (fact : R) (P : MonMap R)
    (H : MonMap (CVec R)) : Res (MonMap (CVec R)) :=
  P.foldlM (fun H it => do
    let a ← addVec64 it.1 ei
    let mon ← addVec64 a (List.replicate (N.n + 1) 1)
    if var.drop (var.coef Dj it.2 fact) then .ok H
    else hAdd N.ndBasis.length H mon 0 (var.coef Dj it.2 fact)) H

/-- The reduction of one term (hypersurface_nd/hypersurface_nd.cc:163-243, 358-427, 669-738). -/
def frobTermND64 (var : NDVar R) (solve : Solver R) (N : ND R) (p e m : Nat) (ei : IVec)
    (s : MonMap (CVec R) × CVec R) (t : IVec × CVec R) : Res (MonMap (CVec R) × CVec R) := do
  let v ← (if 1 < e then var.dir e m ei t.1 else .ok t.1)
  let r ← var.term (if 1 < e then p else p - 1) t.1 v t.2
  if r.2.isZero then pure s
  else if 1 < e then do
    let y ← subVec64 t.1 v
    let py ← mulVec64 p y
    check (decide (py = r.1))
    let H ← accTerm s.1 y r.2
    pure (H, s.2)
  else do
    check (!var.assertLast || decide (r.1 = t.1))
    let M ← cokernelsToBasis solve N t.1
    let g ← M.mulVec r.2
    let F ← s.2.add g
    pure (s.1, F)

/-- The new terms, if there are any with this pole order (hypersurface_nd/hypersurface_nd.cc:121-141, 318-338, 510-535). -/
def frobNewND64 (var : NDVar R) (N : ND R) (T : List (MonMap R)) (ei : IVec) (m prec e : Nat)
    (st : FrobState R) : Res (MonMap (CVec R)) :=
  if m ≤ e then do
    let Dj ← var.djm m (e - m) prec
    let P ← aget T (e - m)
    addTermsND64 var N ei Dj st.fact P st.H
  else .ok st.H

/-- One pass of the loop over `e` (hypersurface_nd/hypersurface_nd.cc:114-246, 311-430, 503-749); `p*e - i - 1` lies between 0 and
`p*e`. -/
def frobPassND64 (var : NDVar R) (solve : Solver R) (N : ND R) (p : Nat) (T : List (MonMap R)) (ei : IVec)
    (m prec e : Nat) (st : FrobState R) : Res (FrobState R) := do
  let H ← frobNewND64 var N T ei m prec e st
  let _ ← i64 ((p : Int) * e)
  let s ← H.foldlM (frobTermND64 var solve N p e m ei) ([], st.last)
  pure ⟨factStep p e st.fact, s.1, s.2⟩

/-- The Frobenius functions up to the factorial division. -/
def frobCoreND64 (var : NDVar R) (solve : Solver R) (N : ND R) (p : Nat) (T : List (MonMap R)) (ei : IVec)
    (m prec : Nat) : Res (CVec R) := do
  let st ← downTo 0 (frobPassND64 var solve N p T ei m prec) (m + prec - 1)
    ⟨1, [], CVec.mk' N.basis.length (fun _ => 0)⟩
  pure st.last

/-- `frob_ND_ZZ_p` (hypersurface_nd/hypersurface_nd.cc:271-454). -/
def varNDP64 (solve : Solver R) (N : ND R) (p : Nat) (batched : Bool) : NDVar R :=
  { varNDP solve N p batched with
    term := fun last u v G =>
      if batched then ndBatched64 (fun a b k G => reduceVectorNDPoly solve N a b k G) p last u v G
      else do
        let pu ← mulVec64 p u
        ndSteps64 (oneNDP solve N v) v last pu G }

end

section

variable {q : Nat}

/-- `frob_ND_ZZ` (hypersurface_nd/hypersurface_nd.cc:62-269). -/
def varNDZ64 (solve : Solver (ZMod q)) (N : ND (ZMod q)) (p : Nat) (kind : LoopKind) : NDVar (ZMod q) :=
  { varNDZ solve N p kind with
    term := fun last u v G => do
      let Z := CVec.mk' G.len (fun i => liftZ (G.e i))
      let r ← (if kind = .poly then ndBatched64 (fun a b k G => reduceVectorNDPolyZ solve N a b k G) p last u v Z
        else do
          let pu ← mulVec64 p u
          ndSteps64 (oneNDZ solve N kind v) v last pu Z)
      pure (r.1, CVec.mk' r.2.len (fun i => ((r.2.e i : Int) : ZMod q))) }

/-- `frob_ND_flint` (hypersurface_nd/hypersurface_nd.cc:456-777). -/
def varNDFlint64 (solve : Solver (ZMod q)) (N : ND (ZMod q)) (p : Nat) : NDVar (ZMod q) :=
  { varNDFlint solve N p with
    term := fun last u v G => do
      let r ← ndBatched64 (fun a b k G => batchFlint solve N a b k G) p last u v (CVec.mk' G.len (fun i => liftZ (G.e i)))
      pure (r.1, CVec.mk' r.2.len (fun i => ((r.2.e i : Int) : ZMod q))) }

/-- A Frobenius function (hypersurface_nd/hypersurface_nd.cc:62-269, 271-454, 456-777); the last factorial is that of
`p * (m + N - 1) - 1`. -/
def frobFunND64 (var : NDVar (ZMod q)) (scale : Nat → Nat → Nat → CVec (ZMod q) → Res (CVec (ZMod q)))
    (solve : Solver (ZMod q)) (N : ND (ZMod q)) (p : Nat) (T : List (MonMap (ZMod q))) (coord prec : Nat) :
    Res (CVec (ZMod q) × List (MonMap (ZMod q))) := do
  check (decide (0 < prec))
  let ei ← aget N.basis coord
  let T' ← computeFpow N.f T ((prec : Int) - 1)
  if N.d = 0 ∨ p = 0 then .error .ub
  else do
    let m := ((sumVec ei + N.n + 1) / N.d).toNat
    let F ← frobCoreND64 var solve N p T' ei m prec
    let a ← i64 ((p : Int) * (m + prec - 1))
    let F' ← scale p N.n (a.toNat - 1) F
    pure (F', T')

/-- `frob_ND_ZZ(coordinate, N, loop)`. -/
def frobNDZ64 (solve : Solver (ZMod q)) (N : ND (ZMod q)) (p : Nat) (kind : LoopKind)
    (T : List (MonMap (ZMod q))) (coord prec : Nat) : Res (CVec (ZMod q) × List (MonMap (ZMod q))) :=
  frobFunND64 (varNDZ64 solve N p kind) frobScale solve N p T coord prec

/-- `frob_ND_ZZ_p(coordinate, N, loop)`. -/
def frobNDP64 (solve : Solver (ZMod q)) (N : ND (ZMod q)) (p : Nat) (batched : Bool)
    (T : List (MonMap (ZMod q))) (coord prec : Nat) : Res (CVec (ZMod q) × List (MonMap (ZMod q))) :=
  frobFunND64 (varNDP64 solve N p batched) frobScale solve N p T coord prec

/-- `frob_ND_flint(coordinate, N)`. -/
def frobNDFlint64 (solve : Solver (ZMod q)) (N : ND (ZMod q)) (p : Nat)
    (T : List (MonMap (ZMod q))) (coord prec : Nat) : Res (CVec (ZMod q) × List (MonMap (ZMod q))) :=
  frobFunND64 (varNDFlint64 solve N p) frobScalePAdic solve N p T coord prec

/-- One iteration of `frob_matrix_ND` (hypersurface_nd/hypersurface_nd.cc:793-823). -/
def frobIterND64 (solve : Solver (ZMod q)) (N : ND (ZMod q)) (p : Nat) (prec : List Int)
    (s : List (MonMap (ZMod q)) × (Nat → CVec (ZMod q))) (i : Nat) :
    Res (List (MonMap (ZMod q)) × (Nat → CVec (ZMod q))) := do
  let b ← aget N.basis i
  if N.d = 0 then .error .ub
  else do
    let Ni ← iget prec ((sumVec b + N.n + 1) / N.d - 1)
    if 0 < Ni then do
      let r ← frobNDFlint64 solve N p s.1 i Ni.toNat
      if r.1.len = N.basis.length then pure (r.2, upd s.2 i r.1) else .error .abort
    else pure s

/-- `frob_matrix_ND(N)` (hypersurface_nd/hypersurface_nd.cc:779-825). -/
def frobMatrixND64 (solve : Solver (ZMod q)) (N : ND (ZMod q)) (p : Nat) (pre : Bool) (order : List Nat)
    (T : List (MonMap (ZMod q))) (prec : List Int) : Res (CMat (ZMod q) × List (MonMap (ZMod q))) := do
  check (decide (N.n = prec.length))
  let T0 ← frobPrepare pre N.f T prec
  let s ← order.foldlM (frobIterND64 solve N p prec) (T0, fun _ => CVec.mk' N.basis.length (fun _ => 0))
  pure (⟨N.basis.length, N.basis.length, fun r c => (s.2 c).e r⟩, s.1)

end

end Verif
