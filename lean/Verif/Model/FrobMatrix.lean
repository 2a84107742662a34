import Verif.Model.Frob

/-!
Model of `hypersurface::frob_matrix_J`.  The loop over the basis is an OpenMP loop: its iterations may be
executed in any order.  The order is a parameter of the model, and so is the preparation done only in the
multi-threaded case.  Interleavings inside iterations are not modelled: after the preparation the iterations
share only data they do not change (the tables of `de_Rham_local` by C28, the table of powers by
`iter_table`), apart from different rows of `F`.
-/

namespace Verif

variable {q : Nat}

/-- One iteration (hypersurface/frob_matrix_J.cc:28-44).  The state is the table of powers and the rows
of `F`.  Assigning a vector of the wrong length to a row of an NTL matrix is an error. -/
def frobIter (solve : Solver (ZMod q)) (D : DR (ZMod q)) (p : Nat) (N : List Int)
    (s : List (MonMap (ZMod q)) × (Nat → CVec (ZMod q))) (i : Nat) :
    Res (List (MonMap (ZMod q)) × (Nat → CVec (ZMod q))) := do
  let b ← aget D.basis i
  if D.d = 0 then .error .ub
  else do
    let Ni ← iget N ((sumVec b + D.n + 1) / D.d - 1)
    if 0 < Ni then do
      let r ← frobJ solve D p s.1 i Ni.toNat
      if r.1.len = D.basis.length then pure (r.2, upd s.2 i r.1) else .error .abort
    else pure s

/-- The preparation when there are several threads (hypersurface/frob_matrix_J.cc:19-23). -/
def frobPrepare (pre : Bool) (f : MonMap (ZMod q)) (T : List (MonMap (ZMod q))) (N : List Int) :
    Res (List (MonMap (ZMod q))) :=
  if pre then do
    let mx ← maxVec N
    computeFpow f T (mx - 1)
  else .ok T

/-- `frob_matrix_J(N)` (hypersurface/frob_matrix_J.cc:14-46), executing the iterations in the given order. -/
def frobMatrixJ (solve : Solver (ZMod q)) (D : DR (ZMod q)) (p : Nat) (pre : Bool) (order : List Nat)
    (T : List (MonMap (ZMod q))) (N : List Int) : Res (CMat (ZMod q) × List (MonMap (ZMod q))) := do
  check (decide (D.n = N.length))
  let T0 ← frobPrepare pre D.f T N
  let s ← order.foldlM (frobIter solve D p N) (T0, fun _ => CVec.mk' D.basis.length (fun _ => 0))
  pure (⟨D.basis.length, D.basis.length, fun r c => (s.2 c).e r⟩, s.1)

end Verif
