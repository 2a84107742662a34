import Verif.Model.FrobI64
import Verif.Model.FrobMatrix

/-!
`frob_J_ZZ`, `frob_J_ZZ_p` and `frob_matrix_J` with the exponent vectors in 64 bits: as Model/Frob, but every sum, difference and multiple
of exponent vectors, the sums of entries and the products `d * n`, `p * e`, `d * p * e`, `p * (m + N - 1)` are computed with `int64_t`, and a
result outside the range is undefined behaviour.  `tweak` only lowers positive entries, so nothing is checked there.
-/

namespace Verif

section

variable {V : Type}

/-- `tweak(p * u - i * v, r)` (hypersurface/frob_J_ZZ.cc:171-172; hypersurface/frob_J_ZZ_p.cc). -/
def tweakAt64 (p : Nat) (r : Int) (u v : IVec) (i : Nat) : Res IVec := do
  let a ← mulVec64 p u
  let b ← mulVec64 i v
  let w ← subVec64 a b
  tweak w r

/-- The loop `for (; i < end; i++)` (hypersurface/frob_J_ZZ.cc:169-202; hypersurface/frob_J_ZZ_p.cc:160-185).  The sum of the entries of `y` is
taken by the reduction (dr/reduce_vector_J_ZZ.cc:10-18, dr/get_reduction_matrix_J.cc:11-19), that of the last `dest` at
hypersurface/frob_J_ZZ.cc:220-222. -/
def redSteps64 (one : IVec → IVec → V → Res V) (p : Nat) (r : Int) (u v : IVec) :
    Nat → Nat → IVec → V → Res (IVec × V)
  | _, 0, dest, G => .ok (dest, G)
  | i, cnt + 1, _, G => do
      let src ← tweakAt64 p r u v i
      let dest ← tweakAt64 p r u v (i + 1)
      let y ← subVec64 src dest
      let _ ← sumVec64 dest
      let _ ← sumVec64 y
      let G' ← one dest y G
      redSteps64 one p r u v (i + 1) cnt dest G'

/-- The `switch(loop)` (hypersurface/frob_J_ZZ.cc:154-204; hypersurface/frob_J_ZZ_p.cc:145-187). -/
def termRed64 (one : IVec → IVec → V → Res V) (batch : IVec → IVec → Int → V → Res V) (kind : LoopKind)
    (p : Nat) (r : Int) (last : Nat) (u v : IVec) (G : V) : Res (IVec × V) :=
  if kind = .poly ∧ r < last then do
    let a ← subVec64 u v
    let rv0 ← mulVec64 r v
    let rv ← tweak rv0 r
    let pa ← mulVec64 p a
    let ev ← mulVec64 ((p : Int) - last) v
    let b ← addVec64 pa ev
    let dest ← addVec64 b rv
    let c ← addVec64 b rv0
    let c ← tweak c r
    check (decide (dest = c))
    let G' ← batch dest v ((last : Int) - r) G
    redSteps64 one p r u v (last - r.toNat) r.toNat dest G'
  else redSteps64 one p r u v 0 last [] G

end

section

variable {R : Type} [CommRing R] [DecidableEq R]

/-- The new terms with pole order `p e` (hypersurface/frob_J_ZZ.cc:84-100; hypersurface/frob_J_ZZ_p.cc:74-90). -/
def addTerms64 (D : DR R) (p : Nat) (ei : IVec) (c : R → R) (dictV : MonMap Nat) (P : MonMap R)
    (H : MonMap (CVec R)) : Res (MonMap (CVec R)) :=
  P.foldlM (fun H it => do
    let a ← addVec64 it.1 ei
    let mon ← addVec64 a (List.replicate (D.n + 1) 1)
    let pm ← mulVec64 p mon
    let w ← tweak pm ((D.d : Int) * D.n - D.n)
    let s ← subVec64 pm w
    let k ← look dictV s
    pure (addTerm dictV.length H mon k (c it.2))) H

/-- The reduction of one term (hypersurface/frob_J_ZZ.cc:121-229). -/
def frobTerm64 (var : FrobVar R) (D : DR R) (p e : Nat) (s : MonMap (CVec R) × CVec R) (t : IVec × CVec R) :
    Res (MonMap (CVec R) × CVec R) := do
  let v ← direction D.d t.1
  let r ← var.term (if D.n / p + 1 < e then p else p - D.n % p) t.1 v t.2
  if var.skip r.2 then pure s
  else if D.n / p + 1 < e then do
    let y ← subVec64 t.1 v
    let H ← accTerm s.1 y r.2
    pure (H, s.2)
  else do
    let M ← inclMatJ D r.1
    let g ← M.mulVec r.2
    let l ← s.2.add g
    pure (s.1, l)

/-- The new terms, if there are any with this pole order. -/
def frobNew64 (var : FrobVar R) (D : DR R) (p : Nat) (T : List (MonMap R)) (ei : IVec) (m N e : Nat)
    (st : FrobState R) : Res (MonMap (CVec R)) :=
  if m ≤ e then do
    let dictV ← D.dict ((D.d : Int) * D.n - D.n)
    let Dj ← var.djm m (e - m) N
    let P ← aget T (e - m)
    addTerms64 D p ei (fun a => var.coef Dj a st.fact) dictV P st.H
  else .ok st.H

/-- One pass of the main loop (hypersurface/frob_J_ZZ.cc:62-233). -/
def frobPass64 (var : FrobVar R) (D : DR R) (p : Nat) (T : List (MonMap R)) (ei : IVec) (m N e : Nat)
    (st : FrobState R) : Res (FrobState R) := do
  let H ← frobNew64 var D p T ei m N e st
  let _ ← i64 ((p : Int) * e)
  let s ← H.foldlM (frobTerm64 var D p e) ([], st.last)
  pure ⟨factStep p e st.fact, s.1, s.2⟩

/-- The terms with pole order `p e <= n` (hypersurface/frob_J_ZZ.cc:241-269; hypersurface/frob_J_ZZ_p.cc:222-242). -/
def frobSmall64 (var : FrobVar R) (solve : Solver R) (D : DR R) (p : Nat) (T : List (MonMap R)) (ei : IVec)
    (m N e : Nat) (fact : R) (F G0 : CVec R) : Res (CVec R × CVec R) := do
  let dpe ← i64 ((D.d : Int) * p * e)
  let dict ← D.dict (dpe - (D.n + 1))
  let Dj ← var.djmLast m (e - m) N
  let P ← aget T (e - m)
  let G0 ← P.foldlM (fun (G0 : CVec R) it => do
    let a ← addVec64 it.1 ei
    let a ← addVec64 a (List.replicate (D.n + 1) 1)
    let pa ← mulVec64 p a
    let mon ← subVec64 pa (List.replicate (D.n + 1) 1)
    let k ← look dict mon
    pure (⟨G0.len, fun i => G0.e i + if i = k then var.coef Dj it.2 fact else 0⟩ : CVec R))
    (G0.clearSet dict.length)
  let M ← finalMatJ solve D (p * e)
  let g ← M.mulVec G0
  let F' ← F.add g
  pure (F', if var.reuse then G0.assign g else G0)

/-- One pass of the last loop (hypersurface/frob_J_ZZ.cc:238-281; hypersurface/frob_J_ZZ_p.cc:216-255). -/
def frobLastPass64 (var : FrobVar R) (solve : Solver R) (D : DR R) (p : Nat) (T : List (MonMap R)) (ei : IVec)
    (m N e : Nat) (s : LastState R) : Res (LastState R) := do
  check (!var.assertFact || decide (s.fact = factorialR (p * (m + N - 1) - 1) (p * e)))
  if m ≤ e then do
    let r ← frobSmall64 var solve D p T ei m N e s.fact s.F s.G0
    pure ⟨factStep p e s.fact, r.1, r.2⟩
  else pure ⟨factStep p e s.fact, s.F, s.G0⟩

/-- The Frobenius functions up to the closing assertion on `fact`
(hypersurface/frob_J_ZZ.cc:11-283; hypersurface/frob_J_ZZ_p.cc:11-257). -/
def frobCore64 (var : FrobVar R) (solve : Solver R) (D : DR R) (p : Nat) (T : List (MonMap R))
    (coord N : Nat) : Res (CVec R) := do
  check (decide (0 < N))
  let ei ← aget D.basis coord
  if D.d = 0 ∨ p = 0 then .error .ub
  else do
    let m := ((sumVec ei + D.n + 1) / D.d).toNat
    let dn ← i64 ((D.d : Int) * D.n)
    let _ ← i64 ((p : Int) * (m + N - 1))
    let len ← binomial (dn - 1) D.n
    if len < 0 then .error .abort
    else do
      let st ← downTo (D.n / p) (frobPass64 var D p T ei m N) (m + N - 1 - D.n / p)
        ⟨1, [], CVec.mk' len.toNat (fun _ => 0)⟩
      let M ← finalMatJ solve D D.n
      let F ← M.mulVec st.last
      let lo := if var.full then 0 else m - 1
      let s ← downTo lo (frobLastPass64 var solve D p T ei m N) (D.n / p - lo)
        ⟨st.fact, F, ⟨0, fun _ => 0⟩⟩
      check (decide (s.fact = factorialR (p * (m + N - 1) - 1) 1))
      pure s.F

/-- `frob_J_ZZ_p` (hypersurface/frob_J_ZZ_p.cc:11-279). -/
def varP64 (solve : Solver R) (D : DR R) (p : Nat) (kind : LoopKind) : FrobVar R :=
  { varP solve D p kind with
    term := fun last u v G => termRed64 (oneP solve D kind) (fun a b k G => reduceVectorJPoly solve D a b k G) kind p
      ((D.d : Int) * D.n - D.n) last u v G }

end

section

variable {q : Nat}

/-- `frob_J_ZZ` (hypersurface/frob_J_ZZ.cc:11-305). -/
def varZ64 (solve : Solver (ZMod q)) (D : DR (ZMod q)) (p : Nat) (kind : LoopKind) : FrobVar (ZMod q) :=
  { varZ solve D p kind with
    term := fun last u v G => do
      let r ← termRed64 (oneZ solve D kind) (fun a b k G => reduceVectorJPolyZ solve D a b k G) kind p
        ((D.d : Int) * D.n - D.n) last u v (CVec.mk' G.len (fun i => liftZ (G.e i)))
      pure (r.1, CVec.mk' r.2.len (fun i => ((r.2.e i : Int) : ZMod q))) }

/-- `frob_J_ZZ(coordinate, N, loop)` and `frob_J_ZZ_p`. -/
def frobFun64 (var : FrobVar (ZMod q)) (solve : Solver (ZMod q)) (D : DR (ZMod q)) (p : Nat)
    (T : List (MonMap (ZMod q))) (coord N : Nat) : Res (CVec (ZMod q) × List (MonMap (ZMod q))) := do
  check (decide (0 < N))
  let ei ← aget D.basis coord
  let T' ← computeFpow D.f T ((N : Int) - 1)
  let F ← frobCore64 var solve D p T' coord N
  let m := ((sumVec ei + D.n + 1) / D.d).toNat
  let F' ← frobScale p D.n (p * (m + N - 1) - 1) F
  pure (F', T')

/-- `frob_J(i, N)`. -/
def frobJ64 (solve : Solver (ZMod q)) (D : DR (ZMod q)) (p : Nat)
    (T : List (MonMap (ZMod q))) (coord N : Nat) : Res (CVec (ZMod q) × List (MonMap (ZMod q))) :=
  frobFun64 (varZ64 solve D p .poly) solve D p T coord N

/-- One iteration of `frob_matrix_J` (hypersurface/frob_matrix_J.cc:28-44). -/
def frobIter64 (solve : Solver (ZMod q)) (D : DR (ZMod q)) (p : Nat) (N : List Int)
    (s : List (MonMap (ZMod q)) × (Nat → CVec (ZMod q))) (i : Nat) :
    Res (List (MonMap (ZMod q)) × (Nat → CVec (ZMod q))) := do
  let b ← aget D.basis i
  if D.d = 0 then .error .ub
  else do
    let Ni ← iget N ((sumVec b + D.n + 1) / D.d - 1)
    if 0 < Ni then do
      let r ← frobJ64 solve D p s.1 i Ni.toNat
      if r.1.len = D.basis.length then pure (r.2, upd s.2 i r.1) else .error .abort
    else pure s

/-- `frob_matrix_J(N)` (hypersurface/frob_matrix_J.cc:14-46). -/
def frobMatrixJ64 (solve : Solver (ZMod q)) (D : DR (ZMod q)) (p : Nat) (pre : Bool) (order : List Nat)
    (T : List (MonMap (ZMod q))) (N : List Int) : Res (CMat (ZMod q) × List (MonMap (ZMod q))) := do
  check (decide (D.n = N.length))
  let T0 ← frobPrepare pre D.f T N
  let s ← order.foldlM (frobIter64 solve D p N) (T0, fun _ => CVec.mk' D.basis.length (fun _ => 0))
  pure (⟨D.basis.length, D.basis.length, fun r c => (s.2 c).e r⟩, s.1)

end

end Verif
