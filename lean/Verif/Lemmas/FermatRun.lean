import Verif.Props.FrobND
import Verif.Props.SolveUnique

/-!
Runs of the constructor and of the sums of the Frobenius functions for `x^3 + y^3 + z^3`, set up so that they can
be evaluated.  The matrices met have one entry in every column, so `solve_system_padic` returns what `monoSolver`
returns.
-/

namespace Verif

open Spec

/-- `x^3 + y^3 + z^3`. -/
def fermatCubic (q : Nat) : MonMap (ZMod q) := [([0, 0, 3], 1), ([0, 3, 0], 1), ([3, 0, 0], 1)]

/-- `solve`, with `monoSolver` where it is known to give the same. -/
def runSolver {q : Nat} (solve : Solver (ZMod q)) : Solver (ZMod q) := fun T =>
  if T.cols = 0 then .ok (List.range T.rows, CMat.one T.rows)
  else if monoShape (zmodInv q) T then monoSolver (zmodInv q) T
  else solve T

theorem zmodInv_none {p N : Nat} [Fact p.Prime] (hN : 1 ≤ N) (x : ZMod (p ^ N)) (h : zmodInv (p ^ N) x = none) :
    redMod p N hN x = 0 := by
  have : NeZero (p ^ N) := ⟨pow_ne_zero _ (Fact.out (p := p.Prime)).ne_zero⟩
  by_contra hne
  rw [redMod_val, ZMod.natCast_eq_zero_iff] at hne
  have hc : Nat.Coprime x.val (p ^ N) :=
    Nat.Coprime.pow_right _ (((Fact.out (p := p.Prime)).coprime_iff_not_dvd.2 hne).symm)
  have hm := ZMod.coe_mul_inv_eq_one x.val hc
  rw [ZMod.natCast_zmod_val] at hm
  rw [zmodInv, if_pos hm] at h
  cases h

theorem runSolver_padic {p N : Nat} [Fact p.Prime] (hN : 1 ≤ N) (la : LinAlg (ZMod p)) (hla : LinAlgOK la)
    (flint : Bool) (precision : Nat) (hprec : N ≤ precision) :
    runSolver (padicSolver p N la flint precision) = padicSolver p N la flint precision := by
  funext T
  rw [runSolver]
  split
  · rename_i h
    rw [padicSolver, solveSystemPadic, if_pos h]
  · split
    · rename_i h
      exact (padicSolver_mono hN la hla flint precision hprec (zmodInv_ok _) (zmodInv_none hN) T h).symm
    · rfl

/-- The constructor returns an object with the basis `1`, `xyz` and the property `t`. -/
def fermatTest (q p : Nat) (solve : Solver (ZMod q)) (t : ND (ZMod q) → Bool) : Bool :=
  match ND.init (runSolver solve) p (fermatCubic q) with
  | .ok N => decide (N.basis = [[0, 0, 0], [1, 1, 1]]) && t N
  | .error _ => false

/-- The sum of a Frobenius function with one term for the basis element `xyz` is `(a, b)`. -/
def sumIs {q : Nat} (var : NDVar (ZMod q)) (solve : Solver (ZMod q)) (p : Nat) (a b : ZMod q) (N : ND (ZMod q)) : Bool :=
  match frobCoreND var (runSolver solve) N p (fpowStart 2) [1, 1, 1] 2 1 with
  | .ok F => decide (F.len = 2) && (decide (F.e 0 = a) && decide (F.e 1 = b))
  | .error _ => false

/-- An assertion fails in that sum. -/
def sumFails {q : Nat} (var : NDVar (ZMod q)) (solve : Solver (ZMod q)) (p : Nat) (N : ND (ZMod q)) : Bool :=
  match frobCoreND var (runSolver solve) N p (fpowStart 2) [1, 1, 1] 2 1 with
  | .error .assertFail => true
  | _ => false

theorem fermatTest_spec {q p : Nat} {solve : Solver (ZMod q)} {t : ND (ZMod q) → Bool} (h : fermatTest q p solve t = true) :
    ∃ N, ND.init (runSolver solve) p (fermatCubic q) = .ok N ∧ N.basis = [[0, 0, 0], [1, 1, 1]] ∧ t N = true := by
  rw [fermatTest] at h
  split at h
  · rename_i N hN
    rw [Bool.and_eq_true] at h
    exact ⟨N, hN, of_decide_eq_true h.1, h.2⟩
  · cases h

theorem sumIs_spec {q p : Nat} {var : NDVar (ZMod q)} {solve : Solver (ZMod q)} {a b : ZMod q} {N : ND (ZMod q)}
    (h : sumIs var solve p a b N = true) :
    ∃ F, frobCoreND var (runSolver solve) N p (fpowStart 2) [1, 1, 1] 2 1 = .ok F ∧ F.len = 2 ∧ F.e 0 = a ∧ F.e 1 = b := by
  rw [sumIs] at h
  split at h
  · rename_i F hF
    rw [Bool.and_eq_true, Bool.and_eq_true] at h
    exact ⟨F, hF, of_decide_eq_true h.1, of_decide_eq_true h.2.1, of_decide_eq_true h.2.2⟩
  · cases h

theorem sumFails_spec {q p : Nat} {var : NDVar (ZMod q)} {solve : Solver (ZMod q)} {N : ND (ZMod q)}
    (h : sumFails var solve p N = true) :
    frobCoreND var (runSolver solve) N p (fpowStart 2) [1, 1, 1] 2 1 = .error .assertFail := by
  rw [sumFails] at h
  split at h
  · assumption
  · cases h

end Verif
