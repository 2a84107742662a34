import Verif.Model.Cache
import Verif.Model.FrobMatrix

/-!
Model of the Frobenius functions of `hypersurface` as they use the dictionaries of `de_Rham_local`:
`frob_J_ZZ`, `frob_J_ZZ_p`, `frob_matrix_J`.  The definitions follow Model/Frob and Model/FrobMatrix, every matrix
being fetched through the method that looks it up first.  The table of powers of `f` is an argument, as there.
-/

namespace Verif

section

variable {q : Nat} (solve : Solver (ZMod q)) (D : DR (ZMod q)) (saveMemory : Bool)

/-- The loop of single reductions (hypersurface/frob_J_ZZ.cc:169-202; hypersurface/frob_J_ZZ_p.cc:160-185); as `redSteps`. -/
def cRedSteps {V : Type} (one : IVec → IVec → V → JM q V) (p : Nat) (r : Int) (u v : IVec) :
    Nat → Nat → IVec → V → JM q (IVec × V)
  | _, 0, dest, G => pure (dest, G)
  | i, cnt + 1, _, G => do
      let src ← JM.pureRes (tweakAt p r u v i)
      let dest ← JM.pureRes (tweakAt p r u v (i + 1))
      let y ← JM.pureRes (subVec src dest)
      let G' ← one dest y G
      cRedSteps one p r u v (i + 1) cnt dest G'

/-- The `switch(loop)` (hypersurface/frob_J_ZZ.cc:154-204; hypersurface/frob_J_ZZ_p.cc:145-187); as `termRed`. -/
def cTermRed {V : Type} (one : IVec → IVec → V → JM q V) (batch : IVec → IVec → Int → V → JM q V) (kind : LoopKind)
    (p : Nat) (r : Int) (last : Nat) (u v : IVec) (G : V) : JM q (IVec × V) :=
  if kind = .poly ∧ r < last then do
    let a ← JM.pureRes (subVec u v)
    let rv ← JM.pureRes (tweak (mulVec r v) r)
    let b ← JM.pureRes (addVec (mulVec p a) (mulVec ((p : Int) - last) v))
    let dest ← JM.pureRes (addVec b rv)
    let c ← JM.pureRes (addVec b (mulVec r v))
    let c ← JM.pureRes (tweak c r)
    JM.pureRes (check (decide (dest = c)))
    let G' ← batch dest v ((last : Int) - r) G
    cRedSteps one p r u v (last - r.toNat) r.toNat dest G'
  else cRedSteps one p r u v 0 last [] G

/-- One reduction over `ZZ_p` (hypersurface/frob_J_ZZ_p.cc:160-186); as `oneP`. -/
def cOneP (kind : LoopKind) (dest y : IVec) (G : CVec (ZMod q)) : JM q (CVec (ZMod q)) :=
  match kind with
  | .mat => do
      let M ← cGetRedJ solve D dest y
      JM.pureRes (M.mulVec G)
  | _ => cReduceJ solve D dest y G

/-- One reduction over `ZZ` (hypersurface/frob_J_ZZ.cc:169-203); as `oneZ`. -/
def cOneZ (kind : LoopKind) (dest y : IVec) (G : CVec Int) : JM q (CVec Int) :=
  match kind with
  | .mat => do
      let M ← cGetRedJZ solve D saveMemory dest y
      let H ← JM.pureRes (M.mulVec G)
      pure (H.remZ q)
  | _ => do
      let H ← cReduceJZ solve D saveMemory dest y G
      pure (H.remZ q)

/-- The reduction of one term, for each of the two functions: as `FrobVar.term`, with the dictionaries. -/
abbrev JTerm (q : Nat) := Nat → IVec → IVec → CVec (ZMod q) → JM q (IVec × CVec (ZMod q))

/-- The reductions of `frob_J_ZZ_p`; as `(varP solve D p kind).term`. -/
def cTermP (p : Nat) (kind : LoopKind) : JTerm q := fun last u v G =>
  cTermRed (cOneP solve D kind) (fun a b k G => cReduceJPoly solve D a b k G) kind p ((D.d : Int) * D.n - D.n) last u v G

/-- The reductions of `frob_J_ZZ`; as `(varZ solve D p kind).term`. -/
def cTermZ (p : Nat) (kind : LoopKind) : JTerm q := fun last u v G => do
  let r ← cTermRed (cOneZ solve D saveMemory kind) (fun a b k G => cReduceJPolyZ solve D saveMemory a b k G) kind p
    ((D.d : Int) * D.n - D.n) last u v (CVec.mk' G.len (fun i => liftZ (G.e i)))
  pure (r.1, CVec.mk' r.2.len (fun i => ((r.2.e i : Int) : ZMod q)))

/-- The reduction of one term, and where the result goes (hypersurface/frob_J_ZZ.cc:121-229); as `frobTerm`. -/
def cFrobTerm (var : FrobVar (ZMod q)) (term : JTerm q) (p e : Nat) (s : MonMap (CVec (ZMod q)) × CVec (ZMod q))
    (t : IVec × CVec (ZMod q)) : JM q (MonMap (CVec (ZMod q)) × CVec (ZMod q)) := do
  let v ← JM.pureRes (direction D.d t.1)
  let r ← term (if D.n / p + 1 < e then p else p - D.n % p) t.1 v t.2
  if var.skip r.2 then pure s
  else if D.n / p + 1 < e then
    JM.pureRes (do
      let y ← subVec t.1 v
      let H ← accTerm s.1 y r.2
      pure (H, s.2))
  else do
    let M ← cInclJ D r.1
    JM.pureRes (do
      let g ← M.mulVec r.2
      let l ← s.2.add g
      pure (s.1, l))

/-- One pass of the main loop (hypersurface/frob_J_ZZ.cc:62-233); as `frobPass`. -/
def cFrobPass (var : FrobVar (ZMod q)) (term : JTerm q) (p : Nat) (T : List (MonMap (ZMod q))) (ei : IVec) (m N e : Nat)
    (st : FrobState (ZMod q)) : JM q (FrobState (ZMod q)) := do
  let H ← JM.pureRes (frobNew var D p T ei m N e st)
  let s ← H.foldlM (cFrobTerm D var term p e) ([], st.last)
  pure ⟨factStep p e st.fact, s.1, s.2⟩

/-- `for (e = lo + cnt; e > lo; e--)`; as `downTo`. -/
def cDownToJ {S : Type} (lo : Nat) (body : Nat → S → JM q S) : Nat → S → JM q S
  | 0, s => pure s
  | cnt + 1, s => do
      let s' ← body (lo + cnt + 1) s
      cDownToJ lo body cnt s'

/-- The terms with pole order `p e <= n` (hypersurface/frob_J_ZZ.cc:241-269; hypersurface/frob_J_ZZ_p.cc:222-242); as
`frobSmall`. -/
def cFrobSmall (var : FrobVar (ZMod q)) (p : Nat) (T : List (MonMap (ZMod q))) (ei : IVec)
    (m N e : Nat) (fact : ZMod q) (F G0 : CVec (ZMod q)) : JM q (CVec (ZMod q) × CVec (ZMod q)) := do
  let dict ← JM.pureRes (D.dict ((D.d : Int) * p * e - (D.n + 1)))
  let Dj ← JM.pureRes (var.djmLast m (e - m) N)
  let P ← JM.pureRes (aget T (e - m))
  let G0 ← JM.pureRes (P.foldlM (fun (G0 : CVec (ZMod q)) it => do
    let a ← addVec it.1 ei
    let a ← addVec a (List.replicate (D.n + 1) 1)
    let mon ← subVec (mulVec p a) (List.replicate (D.n + 1) 1)
    let k ← look dict mon
    pure (⟨G0.len, fun i => G0.e i + if i = k then var.coef Dj it.2 fact else 0⟩ : CVec (ZMod q)))
    (G0.clearSet dict.length))
  let M ← cFinalJ solve D (p * e)
  JM.pureRes (do
    let g ← M.mulVec G0
    let F' ← F.add g
    pure (F', if var.reuse then G0.assign g else G0))

/-- One pass of the last loop (hypersurface/frob_J_ZZ.cc:238-281; hypersurface/frob_J_ZZ_p.cc:216-255); as `frobLastPass`. -/
def cFrobLastPass (var : FrobVar (ZMod q)) (p : Nat) (T : List (MonMap (ZMod q))) (ei : IVec)
    (m N e : Nat) (s : LastState (ZMod q)) : JM q (LastState (ZMod q)) := do
  JM.pureRes (check (!var.assertFact || decide (s.fact = factorialR (p * (m + N - 1) - 1) (p * e))))
  if m ≤ e then do
    let r ← cFrobSmall solve D var p T ei m N e s.fact s.F s.G0
    pure ⟨factStep p e s.fact, r.1, r.2⟩
  else pure ⟨factStep p e s.fact, s.F, s.G0⟩

/-- The Frobenius functions up to the closing assertion on `fact`
(hypersurface/frob_J_ZZ.cc:11-283; hypersurface/frob_J_ZZ_p.cc:11-257); as `frobCore`. -/
def cFrobCore (var : FrobVar (ZMod q)) (term : JTerm q) (p : Nat) (T : List (MonMap (ZMod q)))
    (coord N : Nat) : JM q (CVec (ZMod q)) := do
  JM.pureRes (check (decide (0 < N)))
  let ei ← JM.pureRes (aget D.basis coord)
  if D.d = 0 ∨ p = 0 then JM.pureRes (.error .ub)
  else do
    let len ← JM.pureRes (binomial ((D.d : Int) * D.n - 1) D.n)
    if len < 0 then JM.pureRes (.error .abort)
    else do
      let st ← cDownToJ (D.n / p) (cFrobPass D var term p T ei ((sumVec ei + D.n + 1) / D.d).toNat N)
        (((sumVec ei + D.n + 1) / D.d).toNat + N - 1 - D.n / p) ⟨1, [], CVec.mk' len.toNat (fun _ => 0)⟩
      let M ← cFinalJ solve D D.n
      let F ← JM.pureRes (M.mulVec st.last)
      let s ← cDownToJ (if var.full then 0 else ((sumVec ei + D.n + 1) / D.d).toNat - 1)
        (cFrobLastPass solve D var p T ei ((sumVec ei + D.n + 1) / D.d).toNat N)
        (D.n / p - (if var.full then 0 else ((sumVec ei + D.n + 1) / D.d).toNat - 1)) ⟨st.fact, F, ⟨0, fun _ => 0⟩⟩
      JM.pureRes (check (decide (s.fact = factorialR (p * (((sumVec ei + D.n + 1) / D.d).toNat + N - 1) - 1) 1)))
      pure s.F

/-- A Frobenius function; as `frobFun`. -/
def cFrobFun (var : FrobVar (ZMod q)) (term : JTerm q) (p : Nat) (T : List (MonMap (ZMod q))) (coord N : Nat) :
    JM q (CVec (ZMod q) × List (MonMap (ZMod q))) := do
  JM.pureRes (check (decide (0 < N)))
  let ei ← JM.pureRes (aget D.basis coord)
  let T' ← JM.pureRes (computeFpow D.f T ((N : Int) - 1))
  let F ← cFrobCore solve D var term p T' coord N
  let F' ← JM.pureRes (frobScale p D.n (p * (((sumVec ei + D.n + 1) / D.d).toNat + N - 1) - 1) F)
  pure (F', T')

/-- `frob_J_ZZ(coordinate, N, loop)` (hypersurface/frob_J_ZZ.cc:11-305). -/
def cFrobJZ (p : Nat) (kind : LoopKind) (T : List (MonMap (ZMod q))) (coord N : Nat) :=
  cFrobFun solve D (varZ solve D p kind) (cTermZ solve D saveMemory p kind) p T coord N

/-- `frob_J_ZZ_p(coordinate, N, loop)` (hypersurface/frob_J_ZZ_p.cc:11-279). -/
def cFrobJP (p : Nat) (kind : LoopKind) (T : List (MonMap (ZMod q))) (coord N : Nat) :=
  cFrobFun solve D (varP solve D p kind) (cTermP solve D p kind) p T coord N

/-- One iteration of the loop of `frob_matrix_J` (hypersurface/frob_matrix_J.cc:28-44); as `frobIter`. -/
def cFrobIter (p : Nat) (N : List Int) (s : List (MonMap (ZMod q)) × (Nat → CVec (ZMod q))) (i : Nat) :
    JM q (List (MonMap (ZMod q)) × (Nat → CVec (ZMod q))) := do
  let b ← JM.pureRes (aget D.basis i)
  if D.d = 0 then JM.pureRes (.error .ub)
  else do
    let Ni ← JM.pureRes (iget N ((sumVec b + D.n + 1) / D.d - 1))
    if 0 < Ni then do
      let r ← cFrobJZ solve D saveMemory p .poly s.1 i Ni.toNat
      JM.pureRes (if r.1.len = D.basis.length then pure (r.2, upd s.2 i r.1) else .error .abort)
    else pure s

/-- `frob_matrix_J(N)` (hypersurface/frob_matrix_J.cc:14-46); as `frobMatrixJ`, with `compute_everything_J()` before
the loop when there are several threads. -/
def cFrobMatrixJ (p : Nat) (pre : Bool) (order : List Nat) (T : List (MonMap (ZMod q))) (N : List Int) :
    JM q (CMat (ZMod q) × List (MonMap (ZMod q))) := do
  JM.pureRes (check (decide (D.n = N.length)))
  if pre then cEverythingJ solve D saveMemory
  let T0 ← JM.pureRes (frobPrepare pre D.f T N)
  let s ← order.foldlM (cFrobIter solve D saveMemory p N) (T0, fun _ => CVec.mk' D.basis.length (fun _ => 0))
  pure (⟨D.basis.length, D.basis.length, fun r c => (s.2 c).e r⟩, s.1)

end

end Verif
