import Verif.Model.NDBatch
import Verif.Model.FrobMatrix

/-!
Model of the Frobenius functions of `hypersurface_non_degenerate`
(`hypersurface_nd/hypersurface_nd.cc`), and of the single reductions over `ZZ` that only they use
(`dr_nd/dr_nd.cc`).

The three Frobenius functions differ in a few places only; the differences are the fields of `NDVar`.  The
dictionaries of `de_Rham_non_degenerate_local` are left out.
-/

namespace Verif

/-- The inner `for` of the direction search of `frob_ND_flint`: raise the first `v_i` with
`u_i > v_i + 1 + shift_i` (hypersurface_nd/hypersurface_nd.cc:593-601, 691-699). -/
def bumpShift : IVec → IVec → IVec → Option IVec
  | x :: u, s :: sh, y :: v =>
      if y + 1 + s < x then some ((y + 1) :: v) else (bumpShift u sh v).map (y :: ·)
  | _, _, _ => none

/-- `while (sum < d)` with `k = d - sum`.  When no entry can be raised the loop never ends. -/
def dirLoopShift (u sh : IVec) : Nat → IVec → Res IVec
  | 0, v => .ok v
  | k + 1, v =>
      match bumpShift u sh v with
      | none => .error .diverge
      | some v' => dirLoopShift u sh k v'

/-- The direction `frob_ND_flint` chooses for `u` (hypersurface_nd/hypersurface_nd.cc:581-603, 678-701). -/
def directionShift (d : Nat) (u sh : IVec) : Res IVec := dirLoopShift u sh d (u.map (fun _ => (0 : Int)))

/-! ### Single reductions over `ZZ` -/

section

variable {q : Nat}

/-- `compute_reduction_matrix_ND_ZZ(v)` (dr_nd/dr_nd.cc:1074-1100) computed afresh: `conv` of every matrix. -/
def redMatNDZ (solve : Solver (ZMod q)) (N : ND (ZMod q)) (v : IVec) : Res (MonMap (CMat Int)) := do
  let E ← redMatND solve N v
  .ok (E.map (fun e => (e.1, e.2.map liftZ)))

/-- `get_reduction_matrix_ND_ZZ(u, v)` (dr_nd/dr_nd.cc:420-453). -/
def getReductionMatrixNDZ (solve : Solver (ZMod q)) (N : ND (ZMod q)) (u v : IVec) : Res (CMat Int) := do
  checkND N u v
  let Ms ← redMatNDZ solve N v
  Ms.foldlM (fun (M : CMat Int) e =>
    if e.2.rows = M.rows ∧ e.2.cols = M.cols then
      .ok (CMat.mk' M.rows M.cols (fun i j => M.e i j + (ndMon N.n u e.1 % (q : Int)) * e.2.e i j))
    else .error .abort) (CMat.mk' N.ndBasis.length N.ndBasis.length (fun _ _ => 0))

/-- `itM->second * (monomial_evaluated * G)` (dr_nd/dr_nd.cc:510-513, 517-520). -/
def ndTermZ (n : Nat) (u : IVec) (G : CVec Int) (e : IVec × CMat Int) : Res (CVec Int) :=
  e.2.mulVec (CVec.mk' G.len (fun i => ndMon n u e.1 * G.e i))

/-- `reduce_vector_ND_ZZ(result, u, v, G)` (dr_nd/dr_nd.cc:490-522).  The first entry of the map is read
without asking whether there is one. -/
def reduceVectorNDZ (solve : Solver (ZMod q)) (N : ND (ZMod q)) (u v : IVec) (G : CVec Int) :
    Res (CVec Int) := do
  checkND N u v
  let Ms ← redMatNDZ solve N v
  match Ms with
  | [] => .error .ub
  | e :: rest => do
      let H ← ndTermZ N.n u G e
      rest.foldlM (fun (H : CVec Int) e => do
        let T ← ndTermZ N.n u G e
        if T.len = H.len then .ok (CVec.mk' H.len (fun i => H.e i + T.e i)) else .error .abort) H

end

/-! ### The reductions of one term -/

section

variable {V : Type}

/-- `for (i = 0; i < end; i++) { dest = dest - v; ... }`, `cnt` passes
(hypersurface_nd/hypersurface_nd.cc:207-221, 401-406); returns the last `dest`. -/
def ndSteps (one : IVec → V → Res V) (v : IVec) : Nat → IVec → V → Res (IVec × V)
  | 0, dest, G => .ok (dest, G)
  | cnt + 1, dest, G => do
      let dest' ← subVec dest v
      let G' ← one dest' G
      ndSteps one v cnt dest' G'

/-- Case 0 of the `switch(loop)`: `dest = p * u - end * v` and one batched reduction
(hypersurface_nd/hypersurface_nd.cc:203-204, 397-398, 706-714). -/
def ndBatched (batch : IVec → IVec → Int → V → Res V) (p last : Nat) (u v : IVec) (G : V) :
    Res (IVec × V) := do
  let dest ← subVec (mulVec p u) (mulVec last v)
  let G' ← batch dest v last G
  pure (dest, G')

end

/-- The places where the three Frobenius functions differ. -/
structure NDVar (R : Type) where
  /-- direction for `e`, `m`, `ei`, `u`, used when `e > 1` -/
  dir : Nat → Nat → IVec → IVec → Res IVec
  /-- reductions of a term `(u, G)` in direction `v`, `end` steps -/
  term : Nat → IVec → IVec → CVec R → Res (IVec × CVec R)
  /-- `Djm * it->second * fact` -/
  coef : Int → R → R → R
  /-- a new coefficient is not entered -/
  drop : R → Bool
  /-- `Djm` -/
  djm : Nat → Nat → Nat → Res Int
  /-- the last pass asserts `dest == u` -/
  assertLast : Bool

section

variable {R : Type} [CommRing R] [DecidableEq R]

/-- The new terms with pole order `p e` (hypersurface_nd/hypersurface_nd.cc:134-140, 331-337, 523-534). -/
def addTermsND (var : NDVar R) (N : ND R) (ei : IVec) (Dj : Int) (fact : R) (P : MonMap R)
    (H : MonMap (CVec R)) : Res (MonMap (CVec R)) :=
  P.foldlM (fun H it => do
    let a ← addVec it.1 ei
    let mon ← addVec a (List.replicate (N.n + 1) 1)
    if var.drop (var.coef Dj it.2 fact) then .ok H
    else hAdd N.ndBasis.length H mon 0 (var.coef Dj it.2 fact)) H

/-- The reduction of one term, and where the result goes (hypersurface_nd/hypersurface_nd.cc:163-243, 358-427,
669-738).  The state is `(Hnew, F)`. -/
def frobTermND (var : NDVar R) (solve : Solver R) (N : ND R) (p e m : Nat) (ei : IVec)
    (s : MonMap (CVec R) × CVec R) (t : IVec × CVec R) : Res (MonMap (CVec R) × CVec R) := do
  let v ← (if 1 < e then var.dir e m ei t.1 else .ok t.1)
  let r ← var.term (if 1 < e then p else p - 1) t.1 v t.2
  if r.2.isZero then pure s
  else if 1 < e then do
    let y ← subVec t.1 v
    check (decide (mulVec p y = r.1))
    let H ← accTerm s.1 y r.2
    pure (H, s.2)
  else do
    check (!var.assertLast || decide (r.1 = t.1))
    let M ← cokernelsToBasis solve N t.1
    let g ← M.mulVec r.2
    let F ← s.2.add g
    pure (s.1, F)

/-- The new terms, if there are any with this pole order (hypersurface_nd/hypersurface_nd.cc:121-141, 318-338,
510-535). -/
def frobNewND (var : NDVar R) (N : ND R) (T : List (MonMap R)) (ei : IVec) (m prec e : Nat)
    (st : FrobState R) : Res (MonMap (CVec R)) :=
  if m ≤ e then do
    let Dj ← var.djm m (e - m) prec
    let P ← aget T (e - m)
    addTermsND var N ei Dj st.fact P st.H
  else .ok st.H

/-- One pass of the loop over `e` (hypersurface_nd/hypersurface_nd.cc:114-246, 311-430, 503-749); the field
`last` of the state is `F`. -/
def frobPassND (var : NDVar R) (solve : Solver R) (N : ND R) (p : Nat) (T : List (MonMap R)) (ei : IVec)
    (m prec e : Nat) (st : FrobState R) : Res (FrobState R) := do
  let H ← frobNewND var N T ei m prec e st
  let s ← H.foldlM (frobTermND var solve N p e m ei) ([], st.last)
  pure ⟨factStep p e st.fact, s.1, s.2⟩

/-- The Frobenius functions up to the factorial division; `T` is the table after `compute_fpow(N-1)`
(hypersurface_nd/hypersurface_nd.cc:62-246, 271-430, 456-749). -/
def frobCoreND (var : NDVar R) (solve : Solver R) (N : ND R) (p : Nat) (T : List (MonMap R)) (ei : IVec)
    (m prec : Nat) : Res (CVec R) := do
  let st ← downTo 0 (frobPassND var solve N p T ei m prec) (m + prec - 1)
    ⟨1, [], CVec.mk' N.basis.length (fun _ => 0)⟩
  pure st.last

end

section

variable {R : Type} [CommRing R] [DecidableEq R]

/-- One reduction over `ZZ_p` (hypersurface_nd/hypersurface_nd.cc:403-405). -/
def oneNDP (solve : Solver R) (N : ND R) (v dest : IVec) (G : CVec R) : Res (CVec R) := do
  let M ← getReductionMatrixND solve N dest v
  M.mulVec G

/-- `frob_ND_ZZ_p` with `loop = 0` or `1` (hypersurface_nd/hypersurface_nd.cc:271-454).  (With any other value
the vector is left as it is; not modelled.) -/
def varNDP (solve : Solver R) (N : ND R) (p : Nat) (batched : Bool) : NDVar R where
  dir _ _ _ u := directionND N.d u
  term last u v G :=
    if batched then ndBatched (fun a b k G => reduceVectorNDPoly solve N a b k G) p last u v G
    else ndSteps (oneNDP solve N v) v last (mulVec p u) G
  coef Dj a fact := (Dj : R) * a * fact
  drop _ := false
  djm := djm64
  assertLast := true

end

section

variable {q : Nat}

/-- One reduction over `ZZ`: `loop = 1` takes remainders, `loop = 2` does not
(hypersurface_nd/hypersurface_nd.cc:209-212, 218-220). -/
def oneNDZ (solve : Solver (ZMod q)) (N : ND (ZMod q)) (kind : LoopKind) (v dest : IVec) (G : CVec Int) :
    Res (CVec Int) :=
  match kind with
  | .mat => do
      let M ← getReductionMatrixNDZ solve N dest v
      M.mulVec G
  | _ => do
      let H ← reduceVectorNDZ solve N dest v G
      if H.len < G.len then .error .ub else pure (CVec.mk' G.len (fun i => H.e i % (q : Int)))

/-- `frob_ND_ZZ` with `loop = 0, 1, 2` (hypersurface_nd/hypersurface_nd.cc:62-269). -/
def varNDZ (solve : Solver (ZMod q)) (N : ND (ZMod q)) (p : Nat) (kind : LoopKind) : NDVar (ZMod q) where
  dir _ _ _ u := directionND N.d u
  term last u v G := do
    let Z := CVec.mk' G.len (fun i => liftZ (G.e i))
    let r ← (if kind = .poly then ndBatched (fun a b k G => reduceVectorNDPolyZ solve N a b k G) p last u v Z
      else ndSteps (oneNDZ solve N kind v) v last (mulVec p u) Z)
    pure (r.1, CVec.mk' r.2.len (fun i => ((r.2.e i : Int) : ZMod q)))
  coef Dj a fact := ((Dj * liftZ a * liftZ fact : Int) : ZMod q)
  drop _ := false
  djm := djmMix
  assertLast := true

/-- `get_ND_poly_flint(poly, dest, v)` and `reduce_vector_ND_poly_flint(G, poly, end, G, modulus)`
(hypersurface_nd/hypersurface_nd.cc:711-714; 614, 620). -/
def batchFlint (solve : Solver (ZMod q)) (N : ND (ZMod q)) (u v : IVec) (k : Int) (G : CVec Int) :
    Res (CVec Int) := do
  let poly ← getNDPolyZ solve N u v
  reduceVectorNDPolyFlint q N.n poly k G

/-- `frob_ND_flint` (hypersurface_nd/hypersurface_nd.cc:456-777).  The branch for several threads computes the
same vectors, reads them in the same order and frees `modulus` too early (C46). -/
def varNDFlint (solve : Solver (ZMod q)) (N : ND (ZMod q)) (p : Nat) : NDVar (ZMod q) where
  dir e m ei u := directionShift N.d u (if m < e then ei else List.replicate (N.n + 1) 0)
  term last u v G := do
    let r ← ndBatched (fun a b k G => batchFlint solve N a b k G) p last u v (CVec.mk' G.len (fun i => liftZ (G.e i)))
    pure (r.1, CVec.mk' r.2.len (fun i => ((r.2.e i : Int) : ZMod q)))
  coef Dj a fact := ((Dj * liftZ a * liftZ fact : Int) : ZMod q)
  drop c := decide (c = 0)
  djm := djmMix
  assertLast := false

/-! ### The whole functions -/

/-- The factorial division of `frob_ND_flint` (hypersurface_nd/hypersurface_nd.cc:759-776): as `frobScale`, with
the unit part of `a!` from `factorial_p_adic`. -/
def frobScalePAdic (p n a : Nat) (F : CVec (ZMod q)) : Res (CVec (ZMod q)) := do
  let r ← (factorialPAdic a p 1 : Res (Nat × ZMod q))
  if Nat.gcd r.2.val q ≠ 1 then .error .abort
  else do
    let F1 : CVec (ZMod q) := CVec.mk' F.len (fun i => F.e i * (r.2)⁻¹)
    if (r.1 : Int) ≤ (n : Int) - 1 then
      pure (CVec.mk' F.len (fun i => F1.e i * ((p ^ ((n : Int) - 1 - r.1).toNat : Nat) : ZMod q)))
    else do
      let pp : Int := (p : Int) ^ ((r.1 : Int) - ((n : Int) - 1)).toNat
      check ((List.range F.len).all (fun i => decide (liftZ (F1.e i) % pp = 0)))
      pure (CVec.mk' F.len (fun i => ((liftZ (F1.e i) / pp : Int) : ZMod q)))

/-- A Frobenius function, with the variant and the division at the end; also returns the new table of powers. -/
def frobFunND (var : NDVar (ZMod q)) (scale : Nat → Nat → Nat → CVec (ZMod q) → Res (CVec (ZMod q)))
    (solve : Solver (ZMod q)) (N : ND (ZMod q)) (p : Nat) (T : List (MonMap (ZMod q))) (coord prec : Nat) :
    Res (CVec (ZMod q) × List (MonMap (ZMod q))) := do
  check (decide (0 < prec))
  let ei ← aget N.basis coord
  let T' ← computeFpow N.f T ((prec : Int) - 1)
  if N.d = 0 ∨ p = 0 then .error .ub
  else do
    let m := ((sumVec ei + N.n + 1) / N.d).toNat
    let F ← frobCoreND var solve N p T' ei m prec
    let F' ← scale p N.n (p * (m + prec - 1) - 1) F
    pure (F', T')

/-- `frob_ND_ZZ(coordinate, N, loop)`. -/
def frobNDZ (solve : Solver (ZMod q)) (N : ND (ZMod q)) (p : Nat) (kind : LoopKind)
    (T : List (MonMap (ZMod q))) (coord prec : Nat) : Res (CVec (ZMod q) × List (MonMap (ZMod q))) :=
  frobFunND (varNDZ solve N p kind) frobScale solve N p T coord prec

/-- `frob_ND_ZZ_p(coordinate, N, loop)`. -/
def frobNDP (solve : Solver (ZMod q)) (N : ND (ZMod q)) (p : Nat) (batched : Bool)
    (T : List (MonMap (ZMod q))) (coord prec : Nat) : Res (CVec (ZMod q) × List (MonMap (ZMod q))) :=
  frobFunND (varNDP solve N p batched) frobScale solve N p T coord prec

/-- `frob_ND_flint(coordinate, N)`, which is `frob_ND` (hypersurface_nd/hypersurface_nd.cc:56-60). -/
def frobNDFlint (solve : Solver (ZMod q)) (N : ND (ZMod q)) (p : Nat)
    (T : List (MonMap (ZMod q))) (coord prec : Nat) : Res (CVec (ZMod q) × List (MonMap (ZMod q))) :=
  frobFunND (varNDFlint solve N p) frobScalePAdic solve N p T coord prec

/-- One iteration of `frob_matrix_ND` (hypersurface_nd/hypersurface_nd.cc:793-823).  The state is the table of powers
and the rows of `F`; as in `frobIter`. -/
def frobIterND (solve : Solver (ZMod q)) (N : ND (ZMod q)) (p : Nat) (prec : List Int)
    (s : List (MonMap (ZMod q)) × (Nat → CVec (ZMod q))) (i : Nat) :
    Res (List (MonMap (ZMod q)) × (Nat → CVec (ZMod q))) := do
  let b ← aget N.basis i
  if N.d = 0 then .error .ub
  else do
    let Ni ← iget prec ((sumVec b + N.n + 1) / N.d - 1)
    if 0 < Ni then do
      let r ← frobNDFlint solve N p s.1 i Ni.toNat
      if r.1.len = N.basis.length then pure (r.2, upd s.2 i r.1) else .error .abort
    else pure s

/-- `frob_matrix_ND(N)` (hypersurface_nd/hypersurface_nd.cc:779-825), executing the iterations in the given order; `pre`
says whether the preparation for several threads is made. -/
def frobMatrixND (solve : Solver (ZMod q)) (N : ND (ZMod q)) (p : Nat) (pre : Bool) (order : List Nat)
    (T : List (MonMap (ZMod q))) (prec : List Int) : Res (CMat (ZMod q) × List (MonMap (ZMod q))) := do
  check (decide (N.n = prec.length))
  let T0 ← frobPrepare pre N.f T prec
  let s ← order.foldlM (frobIterND solve N p prec) (T0, fun _ => CVec.mk' N.basis.length (fun _ => 0))
  pure (⟨N.basis.length, N.basis.length, fun r c => (s.2 c).e r⟩, s.1)

end

end Verif
