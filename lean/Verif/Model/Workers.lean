import Verif.Model.CacheND
import Verif.Model.CacheFrob
import Verif.Model.ThreadsFrob

/-!
The parallel loops of `frob_matrix_ND` and `frob_matrix_J` as several threads execute them, with the dictionaries.

A thread of the loop sets the modulus of `ZZ_p` for itself (`context.restore()`), but not the modulus of `zz_p`, which
is local to a thread too and which every solver reads (solve_system/solve_system.cc:37, 353, 418).  So a thread may have no usable solver,
or one for another modulus: iteration `i` runs with a solver `ws i` of its own, the preparation before the loop with
the solver of the main thread.  Inside the loop `frob_ND_flint` takes its branch for several threads
(`omp_get_max_threads()` does not depend on where it is called); `sched i` are the schedules of its inner loops.
-/

namespace Verif

section

variable {q : Nat} (solve : Solver (ZMod q)) (N : ND (ZMod q)) (saveMemory : Bool)

/-- The first loop, for one term (hypersurface_nd/hypersurface_nd.cc:565-616); as `flintPrep`. -/
def cFlintPrep (p e m : Nat) (ei : IVec) (t : IVec × CVec (ZMod q)) : NM q FlintItem := do
  let v ← NM.pureRes (if 1 < e then directionShift N.d t.1 (if m < e then ei else List.replicate (N.n + 1) 0) else .ok t.1)
  let dest ← NM.pureRes (subVec (mulVec p t.1) (mulVec (if 1 < e then p else p - 1 : Nat) v))
  let poly ← cGetNDPolyZ solve N saveMemory dest v
  pure ⟨t.1, v, poly, CVec.mk' t.2.len (fun i => liftZ (t.2.e i))⟩

/-- The last loop, for one term (hypersurface_nd/hypersurface_nd.cc:625-648); as `flintCollect`. -/
def cFlintCollect (p e : Nat) (s : MonMap (CVec (ZMod q)) × CVec (ZMod q)) (it : FlintItem) :
    NM q (MonMap (CVec (ZMod q)) × CVec (ZMod q)) :=
  let G : CVec (ZMod q) := CVec.mk' it.G.len (fun i => ((it.G.e i : Int) : ZMod q))
  if G.isZero then pure s
  else if 1 < e then
    NM.pureRes (do
      let y ← subVec it.u it.v
      let w ← subVec (mulVec p it.u) (mulVec p it.v)
      check (decide (mulVec p y = w))
      let H ← accTerm s.1 y G
      pure (H, s.2))
  else do
    let M ← cCokND solve N it.u
    NM.pureRes (do
      let g ← M.mulVec G
      let F ← s.2.add g
      pure (s.1, F))

/-- One pass of the loop over `e` (hypersurface_nd/hypersurface_nd.cc:503-656); as `frobPassNDThreads`. -/
def cFrobPassNDThreads (sched : Nat → Nat → List Nat) (p : Nat) (T : List (MonMap (ZMod q))) (ei : IVec)
    (m prec e : Nat) (st : FrobState (ZMod q)) : NM q (FrobState (ZMod q)) := do
  let H ← NM.pureRes (frobNewND (varNDFlint solve N p) N T ei m prec e st)
  let items ← H.mapM (cFlintPrep solve N saveMemory p e m ei)
  let items ← NM.pureRes (flintWorkAll q N.n (if 1 < e then p else p - 1) (sched e items.length) items)
  let s ← items.foldlM (cFlintCollect solve N p e) ([], st.last)
  pure ⟨factStep p e st.fact, s.1, s.2⟩

/-- `frob_ND_flint(coordinate, N)` with several threads (hypersurface_nd/hypersurface_nd.cc:456-777); as
`frobNDFlintThreads`. -/
def cFrobNDFlintThreads (sched : Nat → Nat → List Nat) (p : Nat) (T : List (MonMap (ZMod q))) (coord prec : Nat) :
    NM q (CVec (ZMod q) × List (MonMap (ZMod q))) := do
  NM.pureRes (check (decide (0 < prec)))
  let ei ← NM.pureRes (aget N.basis coord)
  let T' ← NM.pureRes (computeFpow N.f T ((prec : Int) - 1))
  if N.d = 0 ∨ p = 0 then NM.pureRes (.error .ub)
  else do
    let st ← cDownTo (cFrobPassNDThreads solve N saveMemory sched p T' ei ((sumVec ei + N.n + 1) / N.d).toNat prec)
      (((sumVec ei + N.n + 1) / N.d).toNat + prec - 1) ⟨1, [], CVec.mk' N.basis.length (fun _ => 0)⟩
    NM.pureRes (do
      let F' ← frobScalePAdic p N.n (p * (((sumVec ei + N.n + 1) / N.d).toNat + prec - 1) - 1) st.last
      pure (F', T'))

/-- One iteration of the parallel loop of `frob_matrix_ND` (hypersurface_nd/hypersurface_nd.cc:793-823). -/
def cFrobIterNDThreads (sched : Nat → Nat → List Nat) (p : Nat) (prec : List Int)
    (s : List (MonMap (ZMod q)) × (Nat → CVec (ZMod q))) (i : Nat) :
    NM q (List (MonMap (ZMod q)) × (Nat → CVec (ZMod q))) := do
  let b ← NM.pureRes (aget N.basis i)
  if N.d = 0 then NM.pureRes (.error .ub)
  else do
    let Ni ← NM.pureRes (iget prec ((sumVec b + N.n + 1) / N.d - 1))
    if 0 < Ni then do
      let r ← cFrobNDFlintThreads solve N saveMemory sched p s.1 i Ni.toNat
      NM.pureRes (if r.1.len = N.basis.length then pure (r.2, upd s.2 i r.1) else .error .abort)
    else pure s

/-- `frob_matrix_ND(N)` with several threads (hypersurface_nd/hypersurface_nd.cc:779-825). -/
def cFrobMatrixNDWorkers (ws : Nat → Solver (ZMod q)) (sched : Nat → Nat → Nat → List Nat) (p : Nat) (order : List Nat)
    (T : List (MonMap (ZMod q))) (prec : List Int) : NM q (CMat (ZMod q) × List (MonMap (ZMod q))) := do
  NM.pureRes (check (decide (N.n = prec.length)))
  cEverythingND solve N saveMemory false false
  let T0 ← NM.pureRes (frobPrepare true N.f T prec)
  let s ← order.foldlM (fun s i => cFrobIterNDThreads (ws i) N saveMemory (sched i) p prec s i)
    (T0, fun _ => CVec.mk' N.basis.length (fun _ => 0))
  pure (⟨N.basis.length, N.basis.length, fun r c => (s.2 c).e r⟩, s.1)

variable (D : DR (ZMod q))

/-- `frob_matrix_J(N)` with several threads (hypersurface/frob_matrix_J.cc:14-46). -/
def cFrobMatrixJWorkers (ws : Nat → Solver (ZMod q)) (p : Nat) (order : List Nat) (T : List (MonMap (ZMod q)))
    (prec : List Int) : JM q (CMat (ZMod q) × List (MonMap (ZMod q))) := do
  JM.pureRes (check (decide (D.n = prec.length)))
  cEverythingJ solve D saveMemory
  let T0 ← JM.pureRes (frobPrepare true D.f T prec)
  let s ← order.foldlM (fun s i => cFrobIter (ws i) D saveMemory p prec s i)
    (T0, fun _ => CVec.mk' D.basis.length (fun _ => 0))
  pure (⟨D.basis.length, D.basis.length, fun r c => (s.2 c).e r⟩, s.1)

end

end Verif
