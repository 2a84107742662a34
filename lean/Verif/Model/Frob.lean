import Verif.Model.Batch
import Verif.Model.Tools
import Verif.Model.Poly
import Mathlib.Data.ZMod.Basic

/-!
Model of `hypersurface`: the table of powers of `f` (`compute_fpow`), the Frobenius of one basis element
(`frob_J_ZZ`, `frob_J_ZZ_p`, all three values of `loop`) and the matrix (`frob_matrix_J`).

The two Frobenius functions differ in a few places only; the differences are the fields of `FrobVar`.
The dictionaries of `de_Rham_local` are left out: by C28 they do not change any value.
-/

namespace Verif

/-! ### compute_fpow.cc -/

section

variable {R : Type} [CommRing R]

/-- The product of two polynomials (hypersurface/compute_fpow.cc:33-51): `itY = Y.find(u)`, then `Y[u] = c`
or `itY->second += c`. -/
def mulPoly (A f : MonMap R) : Res (MonMap R) :=
  A.foldlM (fun Y a => f.foldlM (fun Y b => do
    let u ← addVec a.1 b.1
    pure (MonMap.accum Y u (a.2 * b.2))) Y) []

/-- The first entry of the table, the constant 1 (hypersurface/constructors.cc:13-20). -/
def fpowStart (n : Nat) : List (MonMap R) := [[(List.replicate (n + 1) 0, 1)]]

/-- `cnt` passes of the loop over `k` (hypersurface/compute_fpow.cc:32-53).  `fpow.get(k - 1)` of an empty
table is undefined behaviour. -/
def fpowLoop (f : MonMap R) : Nat → List (MonMap R) → Res (List (MonMap R))
  | 0, T => .ok T
  | cnt + 1, T =>
      match T.getLast? with
      | none => .error .ub
      | some P => do
          let Y ← mulPoly P f
          fpowLoop f cnt (T ++ [Y])

/-- `compute_fpow(power)` (hypersurface/compute_fpow.cc:11-56). -/
def computeFpow (f : MonMap R) (T : List (MonMap R)) (power : Int) : Res (List (MonMap R)) :=
  if (T.length : Int) ≤ power then do
    let T' ← fpowLoop f (power + 1 - T.length).toNat T
    check (decide ((T'.length : Int) = power + 1))
    pure T'
  else .ok T

end

/-! ### The coefficients `D_{j,m}` -/

/-- A signed 64-bit result: overflow is undefined behaviour. -/
def i64 (x : Int) : Res Int := if -2 ^ 63 ≤ x ∧ x < 2 ^ 63 then .ok x else .error .ub

/-- `if (j%2 == 0) Djm += bin; else Djm -= bin;` -/
def addSigned (j : Nat) (D bin : Int) : Int := if j % 2 = 0 then D + bin else D - bin

/-- `cnt` passes of the loop over `i`. -/
def djmLoop (bin : Nat → Res Int) (acc : Int → Int → Res Int) : Nat → Nat → Int → Res Int
  | _, 0, D => .ok D
  | i, cnt + 1, D => do
      let b ← bin i
      let D' ← acc D b
      djmLoop bin acc (i + 1) cnt D'

/-- `Djm` as a big integer, from `binomial_ZZ` and `binomial` (hypersurface/frob_J_ZZ.cc:74-83). -/
def djmZZ (m j N : Nat) : Res Int :=
  djmLoop (fun i => do
    let a ← binomialZZ ((m : Int) + i - 1) ((m : Int) - 1)
    let b ← binomial i j
    pure (a * b)) (fun D b => .ok (addSigned j D b)) j (N - j) 0

/-- `Djm` as a big integer from a 64-bit product (hypersurface/frob_J_ZZ.cc:250-260). -/
def djmMix (m j N : Nat) : Res Int :=
  djmLoop (fun i => do
    let a ← binomial ((m : Int) + i - 1) ((m : Int) - 1)
    let b ← binomial i j
    i64 (a * b)) (fun D b => .ok (addSigned j D b)) j (N - j) 0

/-- `Djm` in 64 bits (hypersurface/frob_J_ZZ_p.cc:64-73, 227-235). -/
def djm64 (m j N : Nat) : Res Int :=
  djmLoop (fun i => do
    let a ← binomial ((m : Int) + i - 1) ((m : Int) - 1)
    let b ← binomial i j
    i64 (a * b)) (fun D b => i64 (addSigned j D b)) j (N - j) 0

/-! ### The reductions of one term -/

/-- The parameter `loop` of the Frobenius functions: 0, 1 and 2.  (Any other value leaves the vector as it
is; it is not modelled.) -/
inductive LoopKind
  | poly
  | vec
  | mat
  deriving DecidableEq

section

variable {V : Type}

/-- `tweak(p * u - i * v, r)` -/
def tweakAt (p : Nat) (r : Int) (u v : IVec) (i : Nat) : Res IVec := do
  let w ← subVec (mulVec p u) (mulVec i v)
  tweak w r

/-- The loop `for (; i < end; i++)` of single reductions, `cnt` passes; returns the last `dest` and the
vector (hypersurface/frob_J_ZZ.cc:169-202; hypersurface/frob_J_ZZ_p.cc:160-185).  `dest` is the value left from before
the loop. -/
def redSteps (one : IVec → IVec → V → Res V) (p : Nat) (r : Int) (u v : IVec) :
    Nat → Nat → IVec → V → Res (IVec × V)
  | _, 0, dest, G => .ok (dest, G)
  | i, cnt + 1, _, G => do
      let src ← tweakAt p r u v i
      let dest ← tweakAt p r u v (i + 1)
      let y ← subVec src dest
      let G' ← one dest y G
      redSteps one p r u v (i + 1) cnt dest G'

/-- The `switch(loop)` (hypersurface/frob_J_ZZ.cc:154-204; hypersurface/frob_J_ZZ_p.cc:145-187), with `last = end` and
`r = d * n - n`. -/
def termRed (one : IVec → IVec → V → Res V) (batch : IVec → IVec → Int → V → Res V) (kind : LoopKind)
    (p : Nat) (r : Int) (last : Nat) (u v : IVec) (G : V) : Res (IVec × V) :=
  if kind = .poly ∧ r < last then do
    let a ← subVec u v
    let rv ← tweak (mulVec r v) r
    let b ← addVec (mulVec p a) (mulVec ((p : Int) - last) v)
    let dest ← addVec b rv
    let c ← addVec b (mulVec r v)
    let c ← tweak c r
    check (decide (dest = c))
    let G' ← batch dest v ((last : Int) - r) G
    redSteps one p r u v (last - r.toNat) r.toNat dest G'
  else redSteps one p r u v 0 last [] G

end

/-- Sum of two vectors; NTL stops when the lengths differ. -/
def CVec.add {R : Type} [CommRing R] (a b : CVec R) : Res (CVec R) :=
  if a.len = b.len then .ok (CVec.mk' a.len (fun i => a.e i + b.e i)) else .error .abort

/-- `IsZero(G)` -/
def CVec.isZero {R : Type} [CommRing R] [DecidableEq R] (a : CVec R) : Bool :=
  (List.range a.len).all (fun i => decide (a.e i = 0))

/-! ### The Frobenius of one basis element -/

/-- The places where `frob_J_ZZ` and `frob_J_ZZ_p` differ. -/
structure FrobVar (R : Type) where
  /-- reductions of a term `(u, G)` in direction `v`, `end` steps -/
  term : Nat → IVec → IVec → CVec R → Res (IVec × CVec R)
  /-- `Djm * it->second * fact` -/
  coef : Int → R → R → R
  /-- skip a vector after the reductions -/
  skip : CVec R → Bool
  /-- `Djm` in the main loop -/
  djm : Nat → Nat → Nat → Res Int
  /-- `Djm` in the last loop -/
  djmLast : Nat → Nat → Nat → Res Int
  /-- the last loop goes on below `e = m` -/
  full : Bool
  /-- the last loop asserts the value of `fact` -/
  assertFact : Bool
  /-- the last loop writes the product with the final reduction matrix back into `G0` -/
  reuse : Bool

section

variable {R : Type} [CommRing R] [DecidableEq R]

/-- `H_temp = &H[monomial]; H_temp->SetLength(len); (*H_temp)[k] += c` (hypersurface/frob_J_ZZ.cc:87-89). -/
def addTerm (len : Nat) (H : MonMap (CVec R)) (mon : IVec) (k : Nat) (c : R) : MonMap (CVec R) :=
  let G := match H.find? mon with
    | some G => G
    | none => CVec.mk' len (fun _ => 0)
  H.set mon (CVec.mk' len (fun i => G.e i + if i = k then c else 0))

/-- The new terms with pole order `p e` (hypersurface/frob_J_ZZ.cc:84-100; hypersurface/frob_J_ZZ_p.cc:74-90). -/
def addTerms (D : DR R) (p : Nat) (ei : IVec) (c : R → R) (dictV : MonMap Nat) (P : MonMap R)
    (H : MonMap (CVec R)) : Res (MonMap (CVec R)) :=
  P.foldlM (fun H it => do
    let a ← addVec it.1 ei
    let mon ← addVec a (List.replicate (D.n + 1) 1)
    let w ← tweak (mulVec p mon) ((D.d : Int) * D.n - D.n)
    let s ← subVec (mulVec p mon) w
    let k ← look dictV s
    pure (addTerm dictV.length H mon k (c it.2))) H

/-- `for (i = 0; i < end; i++) fact *= p*e - i - 1` with `end = (e > 1) ? p : p - 1`
(hypersurface/frob_J_ZZ.cc:110-113, 277-280). -/
def factStep (p e : Nat) (fact : R) : R :=
  (List.range (if 1 < e then p else p - 1)).foldl (fun a (i : Nat) => a * (((p : Int) * e - i - 1 : Int) : R)) fact

/-- `Hnew[y] = G` or `Hnewit->second += G` (hypersurface/frob_J_ZZ.cc:211-216). -/
def accTerm (H : MonMap (CVec R)) (y : IVec) (G : CVec R) : Res (MonMap (CVec R)) :=
  match H.find? y with
  | none => .ok (H.set y G)
  | some x => do
      let s ← x.add G
      pure (H.set y s)

/-- The variables carried around the main loop: `fact`, `H` and `H_last`. -/
structure FrobState (R : Type) where
  fact : R
  H : MonMap (CVec R)
  last : CVec R

/-- The reduction of one term, and where the result goes (hypersurface/frob_J_ZZ.cc:121-229).  The state is
`(Hnew, H_last)`. -/
def frobTerm (var : FrobVar R) (D : DR R) (p e : Nat) (s : MonMap (CVec R) × CVec R) (t : IVec × CVec R) :
    Res (MonMap (CVec R) × CVec R) := do
  let v ← direction D.d t.1
  let r ← var.term (if D.n / p + 1 < e then p else p - D.n % p) t.1 v t.2
  if var.skip r.2 then pure s
  else if D.n / p + 1 < e then do
    let y ← subVec t.1 v
    let H ← accTerm s.1 y r.2
    pure (H, s.2)
  else do
    let M ← inclMatJ D r.1
    let g ← M.mulVec r.2
    let l ← s.2.add g
    pure (s.1, l)

/-- The new terms, if there are any with this pole order. -/
def frobNew (var : FrobVar R) (D : DR R) (p : Nat) (T : List (MonMap R)) (ei : IVec) (m N e : Nat)
    (st : FrobState R) : Res (MonMap (CVec R)) :=
  if m ≤ e then do
    let dictV ← D.dict ((D.d : Int) * D.n - D.n)
    let Dj ← var.djm m (e - m) N
    let P ← aget T (e - m)
    addTerms D p ei (fun a => var.coef Dj a st.fact) dictV P st.H
  else .ok st.H

/-- One pass of the main loop (hypersurface/frob_J_ZZ.cc:62-233). -/
def frobPass (var : FrobVar R) (D : DR R) (p : Nat) (T : List (MonMap R)) (ei : IVec) (m N e : Nat)
    (st : FrobState R) : Res (FrobState R) := do
  let H ← frobNew var D p T ei m N e st
  let s ← H.foldlM (frobTerm var D p e) ([], st.last)
  pure ⟨factStep p e st.fact, s.1, s.2⟩

/-- `for (e = lo + cnt; e > lo; e--)` -/
def downTo {S : Type} (lo : Nat) (body : Nat → S → Res S) : Nat → S → Res S
  | 0, s => .ok s
  | cnt + 1, s => do
      let s' ← body (lo + cnt + 1) s
      downTo lo body cnt s'

/-- `clear(G0); G0.SetLength(len)`.  An NTL vector keeps its storage when it is shortened: the entries past
the length keep their values and are visible again when the length grows.  Here `e` is the storage. -/
def CVec.clearSet (G0 : CVec R) (len : Nat) : CVec R := ⟨len, fun i => if i < G0.len then 0 else G0.e i⟩

/-- The assignment `x = g` of NTL vectors: the storage of `x` past the length of `g` is kept. -/
def CVec.assign (x g : CVec R) : CVec R := ⟨g.len, fun i => if i < g.len then g.e i else x.e i⟩

/-- The terms with pole order `p e <= n` (hypersurface/frob_J_ZZ.cc:241-269; hypersurface/frob_J_ZZ_p.cc:222-242): added
to `F` with the final reduction matrix.  Returns `F` and `G0`; `frob_J_ZZ` multiplies in place,
`mul(G0, M, G0)`, `frob_J_ZZ_p` does not. -/
def frobSmall (var : FrobVar R) (solve : Solver R) (D : DR R) (p : Nat) (T : List (MonMap R)) (ei : IVec)
    (m N e : Nat) (fact : R) (F G0 : CVec R) : Res (CVec R × CVec R) := do
  let dict ← D.dict ((D.d : Int) * p * e - (D.n + 1))
  let Dj ← var.djmLast m (e - m) N
  let P ← aget T (e - m)
  let G0 ← P.foldlM (fun (G0 : CVec R) it => do
    let a ← addVec it.1 ei
    let a ← addVec a (List.replicate (D.n + 1) 1)
    let mon ← subVec (mulVec p a) (List.replicate (D.n + 1) 1)
    let k ← look dict mon
    pure (⟨G0.len, fun i => G0.e i + if i = k then var.coef Dj it.2 fact else 0⟩ : CVec R))
    (G0.clearSet dict.length)
  let M ← finalMatJ solve D (p * e)
  let g ← M.mulVec G0
  let F' ← F.add g
  pure (F', if var.reuse then G0.assign g else G0)

/-- The variables carried around the last loop: `fact`, `F` and `G0`. -/
structure LastState (R : Type) where
  fact : R
  F : CVec R
  G0 : CVec R

/-- One pass of the last loop (hypersurface/frob_J_ZZ.cc:238-281; hypersurface/frob_J_ZZ_p.cc:216-255). -/
def frobLastPass (var : FrobVar R) (solve : Solver R) (D : DR R) (p : Nat) (T : List (MonMap R)) (ei : IVec)
    (m N e : Nat) (s : LastState R) : Res (LastState R) := do
  check (!var.assertFact || decide (s.fact = factorialR (p * (m + N - 1) - 1) (p * e)))
  if m ≤ e then do
    let r ← frobSmall var solve D p T ei m N e s.fact s.F s.G0
    pure ⟨factStep p e s.fact, r.1, r.2⟩
  else pure ⟨factStep p e s.fact, s.F, s.G0⟩

/-- The Frobenius functions up to the closing assertion on `fact`
(hypersurface/frob_J_ZZ.cc:11-283; hypersurface/frob_J_ZZ_p.cc:11-257).  `T` is the table after `compute_fpow(N-1)`.
Returns the vector before the factors are divided out. -/
def frobCore (var : FrobVar R) (solve : Solver R) (D : DR R) (p : Nat) (T : List (MonMap R))
    (coord N : Nat) : Res (CVec R) := do
  check (decide (0 < N))
  let ei ← aget D.basis coord
  if D.d = 0 ∨ p = 0 then .error .ub
  else do
    let m := ((sumVec ei + D.n + 1) / D.d).toNat
    let len ← binomial ((D.d : Int) * D.n - 1) D.n
    if len < 0 then .error .abort
    else do
      let st ← downTo (D.n / p) (frobPass var D p T ei m N) (m + N - 1 - D.n / p)
        ⟨1, [], CVec.mk' len.toNat (fun _ => 0)⟩
      let M ← finalMatJ solve D D.n
      let F ← M.mulVec st.last
      let lo := if var.full then 0 else m - 1
      let s ← downTo lo (frobLastPass var solve D p T ei m N) (D.n / p - lo)
        ⟨st.fact, F, ⟨0, fun _ => 0⟩⟩
      check (decide (s.fact = factorialR (p * (m + N - 1) - 1) 1))
      pure s.F

end

section

variable {R : Type} [CommRing R] [DecidableEq R]

/-- One reduction over `ZZ_p` (hypersurface/frob_J_ZZ_p.cc:160-186). -/
def oneP (solve : Solver R) (D : DR R) (kind : LoopKind) (dest y : IVec) (G : CVec R) : Res (CVec R) :=
  match kind with
  | .mat => do
      let M ← getReductionMatrixJ solve D dest y
      M.mulVec G
  | _ => reduceVectorJ solve D dest y G

/-- `frob_J_ZZ_p` (hypersurface/frob_J_ZZ_p.cc:11-279). -/
def varP (solve : Solver R) (D : DR R) (p : Nat) (kind : LoopKind) : FrobVar R where
  term last u v G := termRed (oneP solve D kind) (fun a b k G => reduceVectorJPoly solve D a b k G) kind p
    ((D.d : Int) * D.n - D.n) last u v G
  coef Dj a fact := (Dj : R) * a * fact
  skip _ := false
  djm := djm64
  djmLast := djm64
  full := false
  assertFact := false
  reuse := false

end

section

variable {q : Nat}

/-- `rem(G[j], Gswap[j], ZZ_p::modulus())` for all `j`. -/
def CVec.remZ (q : Nat) (G : CVec Int) : CVec Int := CVec.mk' G.len (fun i => G.e i % (q : Int))

/-- One reduction over `ZZ` (hypersurface/frob_J_ZZ.cc:169-203). -/
def oneZ (solve : Solver (ZMod q)) (D : DR (ZMod q)) (kind : LoopKind) (dest y : IVec) (G : CVec Int) :
    Res (CVec Int) :=
  match kind with
  | .mat => do
      let M ← getReductionMatrixJZ solve D dest y
      let H ← M.mulVec G
      pure (H.remZ q)
  | _ => do
      let H ← reduceVectorJZ solve D dest y G
      pure (H.remZ q)

/-- `frob_J_ZZ` (hypersurface/frob_J_ZZ.cc:11-305); `conv< Vec<ZZ> >` before the reductions and
`conv< Vec<ZZ_p> >` after them. -/
def varZ (solve : Solver (ZMod q)) (D : DR (ZMod q)) (p : Nat) (kind : LoopKind) :
    FrobVar (ZMod q) where
  term last u v G := do
    let r ← termRed (oneZ solve D kind) (fun a b k G => reduceVectorJPolyZ solve D a b k G) kind p
      ((D.d : Int) * D.n - D.n) last u v (CVec.mk' G.len (fun i => liftZ (G.e i)))
    pure (r.1, CVec.mk' r.2.len (fun i => ((r.2.e i : Int) : ZMod q)))
  coef Dj a fact := ((Dj * liftZ a * liftZ fact : Int) : ZMod q)
  skip := CVec.isZero
  djm := djmZZ
  djmLast := djmMix
  full := true
  assertFact := true
  reuse := true

/-! ### Dividing out the factors -/

/-- The end of the Frobenius functions (hypersurface/frob_J_ZZ.cc:284-304): with `a = p (m + N - 1) - 1`,
multiply by the inverse of the part of `a!` prime to `p`, then by `p^(n-1-val)` or divide by
`p^(val-(n-1))`, asserting that the division is exact.  `inv` of a non-unit is an NTL error. -/
def frobScale (p n a : Nat) (F : CVec (ZMod q)) : Res (CVec (ZMod q)) := do
  let val ← valuationOfFactorial a p
  let fac : Int := factorialR a 1
  let tmp := fac / (p : Int) ^ val.toNat
  check (decide (fac % (p : Int) ^ val.toNat = 0))
  if Int.gcd tmp q ≠ 1 then .error .abort
  else do
    let F1 : CVec (ZMod q) := CVec.mk' F.len (fun i => F.e i * (tmp : ZMod q)⁻¹)
    if val ≤ (n : Int) - 1 then
      pure (CVec.mk' F.len (fun i => F1.e i * ((p ^ ((n : Int) - 1 - val).toNat : Nat) : ZMod q)))
    else do
      let pp : Int := (p : Int) ^ (val - ((n : Int) - 1)).toNat
      check ((List.range F.len).all (fun i => decide (liftZ (F1.e i) % pp = 0)))
      pure (CVec.mk' F.len (fun i => ((liftZ (F1.e i) / pp : Int) : ZMod q)))

/-- `frob_J_ZZ(coordinate, N, loop)` and `frob_J_ZZ_p` for the corresponding variant, together with the new
table of powers. -/
def frobFun (var : FrobVar (ZMod q)) (solve : Solver (ZMod q)) (D : DR (ZMod q)) (p : Nat)
    (T : List (MonMap (ZMod q))) (coord N : Nat) : Res (CVec (ZMod q) × List (MonMap (ZMod q))) := do
  check (decide (0 < N))
  let ei ← aget D.basis coord
  let T' ← computeFpow D.f T ((N : Int) - 1)
  let F ← frobCore var solve D p T' coord N
  let m := ((sumVec ei + D.n + 1) / D.d).toNat
  let F' ← frobScale p D.n (p * (m + N - 1) - 1) F
  pure (F', T')

/-- `frob_J(i, N)` (hypersurface.h: `frob_J_ZZ(coordinate, N, 0)`). -/
def frobJ (solve : Solver (ZMod q)) (D : DR (ZMod q)) (p : Nat)
    (T : List (MonMap (ZMod q))) (coord N : Nat) : Res (CVec (ZMod q) × List (MonMap (ZMod q))) :=
  frobFun (varZ solve D p .poly) solve D p T coord N

end

end Verif
