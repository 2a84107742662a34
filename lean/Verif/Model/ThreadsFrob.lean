import Verif.Model.FrobND

/-!
The branch of `frob_ND_flint` for several threads (hypersurface_nd/hypersurface_nd.cc:555-656): every pass first
fetches the polynomials of all terms, then reduces all the vectors in a parallel loop, then collects the results.

`modulus` is taken to be the same number all the time; that the code clears it at the end of the first pass is
C46.
-/

namespace Verif

section

variable {q : Nat}

/-- What the arrays `u_list`, `v_list`, `poly_list`, `G_list` hold for one term. -/
structure FlintItem where
  u : IVec
  v : IVec
  poly : Nat → CMat Int
  G : CVec Int

/-- The first loop, for one term (hypersurface_nd/hypersurface_nd.cc:565-616). -/
def flintPrep (solve : Solver (ZMod q)) (N : ND (ZMod q)) (p e m : Nat) (ei : IVec) (t : IVec × CVec (ZMod q)) :
    Res FlintItem := do
  let v ← (if 1 < e then directionShift N.d t.1 (if m < e then ei else List.replicate (N.n + 1) 0) else .ok t.1)
  let dest ← subVec (mulVec p t.1) (mulVec (if 1 < e then p else p - 1 : Nat) v)
  let poly ← getNDPolyZ solve N dest v
  pure ⟨t.1, v, poly, CVec.mk' t.2.len (fun i => liftZ (t.2.e i))⟩

/-- One iteration of the parallel loop (hypersurface_nd/hypersurface_nd.cc:620). -/
def flintWork (q n : Nat) (last : Nat) (it : FlintItem) : Res FlintItem := do
  let G ← reduceVectorNDPolyFlint q n it.poly last it.G
  pure { it with G := G }

/-- The parallel loop, its iterations executed in the given order; each one works on its own part of the arrays
(hypersurface_nd/hypersurface_nd.cc:618-620). -/
def flintWorkAll (q n : Nat) (last : Nat) (order : List Nat) (items : List FlintItem) : Res (List FlintItem) :=
  order.foldlM (fun items i => do
    let it ← aget items i
    let it' ← flintWork q n last it
    aset items i it') items

/-- The last loop, for one term (hypersurface_nd/hypersurface_nd.cc:625-648). -/
def flintCollect (solve : Solver (ZMod q)) (N : ND (ZMod q)) (p e : Nat)
    (s : MonMap (CVec (ZMod q)) × CVec (ZMod q)) (it : FlintItem) : Res (MonMap (CVec (ZMod q)) × CVec (ZMod q)) := do
  let G : CVec (ZMod q) := CVec.mk' it.G.len (fun i => ((it.G.e i : Int) : ZMod q))
  if G.isZero then pure s
  else if 1 < e then do
    let y ← subVec it.u it.v
    let w ← subVec (mulVec p it.u) (mulVec p it.v)
    check (decide (mulVec p y = w))
    let H ← accTerm s.1 y G
    pure (H, s.2)
  else do
    let M ← cokernelsToBasis solve N it.u
    let g ← M.mulVec G
    let F ← s.2.add g
    pure (s.1, F)

/-- One pass of the loop over `e`.  `sched e k` is the order in which the `k` iterations of the parallel loop are
executed in pass `e`. -/
def frobPassNDThreads (sched : Nat → Nat → List Nat) (solve : Solver (ZMod q)) (N : ND (ZMod q)) (p : Nat)
    (T : List (MonMap (ZMod q))) (ei : IVec) (m prec e : Nat) (st : FrobState (ZMod q)) : Res (FrobState (ZMod q)) := do
  let H ← frobNewND (varNDFlint solve N p) N T ei m prec e st
  let items ← H.mapM (flintPrep solve N p e m ei)
  let items ← flintWorkAll q N.n (if 1 < e then p else p - 1) (sched e items.length) items
  let s ← items.foldlM (flintCollect solve N p e) ([], st.last)
  pure ⟨factStep p e st.fact, s.1, s.2⟩

/-- `frob_ND_flint(coordinate, N)` with several threads. -/
def frobNDFlintThreads (sched : Nat → Nat → List Nat) (solve : Solver (ZMod q)) (N : ND (ZMod q)) (p : Nat)
    (T : List (MonMap (ZMod q))) (coord prec : Nat) : Res (CVec (ZMod q) × List (MonMap (ZMod q))) := do
  check (decide (0 < prec))
  let ei ← aget N.basis coord
  let T' ← computeFpow N.f T ((prec : Int) - 1)
  if N.d = 0 ∨ p = 0 then .error .ub
  else do
    let m := ((sumVec ei + N.n + 1) / N.d).toNat
    let st ← downTo 0 (frobPassNDThreads sched solve N p T' ei m prec) (m + prec - 1)
      ⟨1, [], CVec.mk' N.basis.length (fun _ => 0)⟩
    let F' ← frobScalePAdic p N.n (p * (m + prec - 1) - 1) st.last
    pure (F', T')

end

end Verif
