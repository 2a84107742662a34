import Verif.Model.FrobND
import Verif.Model.NDWords

/-!
`frob_ND_flint` (hypersurface_nd/hypersurface_nd.cc:456-777) with its reductions in machine words.
-/

namespace Verif

/-- What the buffers of `reduce_vector_ND_poly_flint` hold after `_nmod_vec_init`, for every call. -/
abbrev Buffers := IVec → IVec → Int → CVec Int → List Nat × List Nat

section

variable {q : Nat}

/-- `get_ND_poly_flint(poly, dest, v)` and `reduce_vector_ND_poly_flint(G, poly, end, G, modulus)`
(hypersurface_nd/hypersurface_nd.cc:711-714; 614, 620), the latter in machine words when the modulus is one
(`fmpz_size(modulus) > 1`, dr_nd/dr_nd.cc:753). -/
def batchWords (junk : Buffers) (solve : Solver (ZMod q)) (N : ND (ZMod q)) (u v : IVec) (k : Int) (G : CVec Int) : Res (CVec Int) := do
  let poly ← getNDPolyZ solve N u v
  if 2 ^ 64 ≤ q then reduceVectorNDPolyFlint q N.n poly k G
  else reduceNDWords q N.n poly k G (junk u v k G).1 (junk u v k G).2

/-- As `varNDFlint`, with the reductions in machine words. -/
def varNDWords (junk : Buffers) (solve : Solver (ZMod q)) (N : ND (ZMod q)) (p : Nat) : NDVar (ZMod q) where
  dir e m ei u := directionShift N.d u (if m < e then ei else List.replicate (N.n + 1) 0)
  term last u v G := do
    let r ← ndBatched (fun a b k G => batchWords junk solve N a b k G) p last u v (CVec.mk' G.len (fun i => liftZ (G.e i)))
    pure (r.1, CVec.mk' r.2.len (fun i => ((r.2.e i : Int) : ZMod q)))
  coef Dj a fact := ((Dj * liftZ a * liftZ fact : Int) : ZMod q)
  drop c := decide (c = 0)
  djm := djmMix
  assertLast := false

/-- `frob_ND_flint(coordinate, N)` (hypersurface_nd/hypersurface_nd.cc:456-777) with the reductions in machine words. -/
def frobNDWords (junk : Buffers) (solve : Solver (ZMod q)) (N : ND (ZMod q)) (p : Nat)
    (T : List (MonMap (ZMod q))) (coord prec : Nat) : Res (CVec (ZMod q) × List (MonMap (ZMod q))) :=
  frobFunND (varNDWords junk solve N p) frobScalePAdic solve N p T coord prec

end

end Verif
