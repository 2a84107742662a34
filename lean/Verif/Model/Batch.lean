import Verif.Model.DeRham

/-!
Model of the batched reductions and of the versions working over `ZZ` of `de_Rham_local`
(`dr/reduce_vector_J_poly.cc`, `dr/*_ZZ.cc`).

The part of the functions after the matrices for `v` have been fetched is written once for `ZZ_p` and
`ZZ`; the files repeat it with the types changed.  The fetched matrices are a list of length `n+2`; the
model writes them `Nat → CMat`.
-/

namespace Verif

/-- `result = M[0]*G; result += u_i * (M[i+1]*G)` (dr/reduce_vector_J.cc:22-28,
dr/reduce_vector_J_ZZ.cc:21-28). -/
def reduceWith {R : Type} [CommRing R] (n : Nat) (Ms : Nat → CMat R) (u : IVec) (G : CVec R) :
    Res (CVec R) := do
  let G0 ← (Ms 0).mulVec G
  forRange (n + 1) G0 (fun i res => do
    let Gi ← (Ms (i + 1)).mulVec G
    if Gi.len = res.len then
      pure (CVec.mk' res.len (fun r => res.e r + ((u.getD i 0 : Int) : R) * Gi.e r))
    else .error .abort)

/-- `M1 = Σ v_i M[i+1]` (dr/reduce_vector_J_poly.cc:30-34): `M1` is `len x len`, and NTL's `+=` stops
when the shapes differ. -/
def slopeRed {R : Type} [CommRing R] (n len : Nat) (Ms : Nat → CMat R) (v : IVec) : Res (CMat R) :=
  forRange (n + 1) (CMat.mk' len len (fun _ _ => (0 : R))) (fun i M =>
    if (Ms (i + 1)).rows = M.rows ∧ (Ms (i + 1)).cols = M.cols then
      pure (CMat.mk' M.rows M.cols (fun r c => M.e r c + ((v.getD i 0 : Int) : R) * (Ms (i + 1)).e r c))
    else .error .abort)

/-- The loop `for(x = iterations - 1; x != -1; x--)` with `x + 1` passes left
(dr/reduce_vector_J_poly.cc:37-46, dr/reduce_vector_J_poly_ZZ.cc:37-45); `red` is the identity over
`ZZ_p` and the remainder modulo `p^precision` over `ZZ`. -/
def polyLoop {R : Type} [CommRing R] (red : R → R) (M0 M1 : CMat R) : Nat → CVec R → Res (CVec R)
  | 0, G => .ok G
  | x + 1, G => do
      let G0 ← M0.mulVec G
      let G1 ← M1.mulVec G
      if G0.len = G1.len then
        polyLoop red M0 M1 x (CVec.mk' G0.len (fun r => red (G0.e r + (x : R) * G1.e r)))
      else .error .abort

/-- The part after `compute_reduction_matrix_J(v)` (dr/reduce_vector_J_poly.cc:23-47,
dr/reduce_vector_J_poly_ZZ.cc:24-46).  With a negative count the loop runs into signed overflow. -/
def polyWith {R : Type} [CommRing R] (red : R → R) (n : Nat) (Ms : Nat → CMat R) (u v : IVec) (k : Int)
    (G : CVec R) : Res (CVec R) := do
  let M1 ← slopeRed n G.len Ms v
  if k < 0 then .error .ub
  else polyLoop red (evalRed n Ms u) M1 k.toNat G

/-- `compute_reduction_matrix_J(v)` computed afresh (dr/compute_reduction_matrix_J.cc:13-111). -/
def freshRedJ {R : Type} [CommRing R] (solve : Solver R) (D : DR R) (v : IVec) : Res (Nat → CMat R) := do
  let top ← solveJ solve D D.topLevel
  redMatJ D top.2 v

/-- `reduce_vector_J_poly(result, u, v, iterations, G)` (dr/reduce_vector_J_poly.cc:9-48). -/
def reduceVectorJPoly {R : Type} [CommRing R] (solve : Solver R) (D : DR R) (u v : IVec) (k : Int)
    (G : CVec R) : Res (CVec R) := do
  checkUV D u v
  let Ms ← freshRedJ solve D v
  polyWith id D.n Ms u v k G

/-! ### over `ZZ` -/

/-- `conv<ZZ>` of a `ZZ_p`: the representative in `[0, q)`. -/
def liftZ {q : Nat} (x : ZMod q) : Int := (x.val : Int)

/-- `compute_reduction_matrix_J_ZZ(v)` computed afresh (dr/compute_reduction_matrix_J_ZZ.cc:11-37). -/
def freshRedJZ {q : Nat} (solve : Solver (ZMod q)) (D : DR (ZMod q)) (v : IVec) : Res (Nat → CMat Int) := do
  let Ms ← freshRedJ solve D v
  pure (fun i => (Ms i).map liftZ)

/-- `get_reduction_matrix_J_ZZ(u, v)` (dr/get_reduction_matrix_J_ZZ.cc:10-30). -/
def getReductionMatrixJZ {q : Nat} (solve : Solver (ZMod q)) (D : DR (ZMod q)) (u v : IVec) :
    Res (CMat Int) := do
  checkUV D u v
  let Ms ← freshRedJZ solve D v
  pure (evalRed D.n Ms u)

/-- `reduce_vector_J_ZZ(result, u, v, G)` (dr/reduce_vector_J_ZZ.cc:8-29). -/
def reduceVectorJZ {q : Nat} (solve : Solver (ZMod q)) (D : DR (ZMod q)) (u v : IVec) (G : CVec Int) :
    Res (CVec Int) := do
  checkUV D u v
  let Ms ← freshRedJZ solve D v
  reduceWith D.n Ms u G

/-- `reduce_vector_J_poly_ZZ(result, u, v, iterations, G)` (dr/reduce_vector_J_poly_ZZ.cc:10-47). -/
def reduceVectorJPolyZ {q : Nat} (solve : Solver (ZMod q)) (D : DR (ZMod q)) (u v : IVec) (k : Int)
    (G : CVec Int) : Res (CVec Int) := do
  checkUV D u v
  let Ms ← freshRedJZ solve D v
  polyWith (· % (q : Int)) D.n Ms u v k G

end Verif
