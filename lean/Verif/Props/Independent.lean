import Verif.Props.SolveUnique
import Verif.Props.SolveWords
import Verif.Model.Pipeline
import Verif.Model.Programs
import Verif.Model.TestPrograms
import Verif.Model.Examples
import Verif.Props.Smooth

/-!
C84: what the programs compute does not depend on the library that does the linear algebra: NTL or FLINT, with any elimination, any rank
and any determinant routine meeting the contract.
-/

namespace Verif

open Spec

/-- Ranks and determinants are the same. -/
theorem RankDetOK.rank_eq {F : Type} [Field F] {rd rd' : RankDet F} (h : RankDetOK rd) (h' : RankDetOK rd') : rd.rank = rd'.rank := by
  funext M
  rw [h.rank, h'.rank]

theorem RankDetOK.det_eq {F : Type} [Field F] {rd rd' : RankDet F} (h : RankDetOK rd) (h' : RankDetOK rd') (M : CMat F)
    (hM : M.rows = M.cols) : rd.det M = rd'.det M := by
  rw [h.det M M.cols hM rfl, h'.det M M.cols hM rfl]

/-- **C84 (tests of smoothness).**  `isSmooth` and `isND` do not depend on the rank routine. -/
theorem C84_smooth {p : Nat} [Fact p.Prime] {rd rd' : RankDet (ZMod p)} (h : RankDetOK rd) (h' : RankDetOK rd') (q : Nat)
    (f : MonMap (ZMod p)) : isSmooth rd q f = isSmooth rd' q f ∧ isND rd q f = isND rd' q f := by
  constructor
  · rw [isSmooth, isSmooth, RankDetOK.rank_eq h h']
  · rw [isND, isND, RankDetOK.rank_eq h h']

theorem slLoop_indep {F : Type} [Field F] {rd rd' : RankDet F} (h : RankDetOK rd) (h' : RankDetOK rd') (rnd : Rnd F) (n t pos : Nat) :
    slLoop rd rnd n t pos = slLoop rd' rnd n t pos := by
  induction t generalizing pos with
  | zero => rfl
  | succ t ih => rw [slLoop, slLoop, RankDetOK.rank_eq h h', ih]

theorem slLoop_square {F : Type} [Field F] {rd : RankDet F} {rnd : Rnd F} {n t pos pos' : Nat} {M : CMat F}
    (h : slLoop rd rnd n t pos = some (M, pos')) : M.rows = n ∧ M.cols = n := by
  induction t generalizing pos with
  | zero => simp [slLoop] at h
  | succ t ih =>
    rw [slLoop] at h
    split at h
    · simp only [Option.some.injEq, Prod.mk.injEq] at h
      rw [← h.1]
      exact ⟨rfl, rfl⟩
    · exact ih h

/-- **C84 (random matrices).**  For the same random numbers `random_SL_matrix` returns the same matrix. -/
theorem C84_random_SL {F : Type} [Field F] [DecidableEq F] {rd rd' : RankDet F} (h : RankDetOK rd) (h' : RankDetOK rd') (rnd : Rnd F)
    (n t : Nat) (pos : RndPos) : randomSL rd rnd n t pos = randomSL rd' rnd n t pos := by
  rw [randomSL, randomSL, slLoop_indep h h']
  rcases hs : slLoop rd' rnd n t pos.zz with _ | ⟨M, zz⟩
  · rfl
  · obtain ⟨h1, h2⟩ := slLoop_square hs
    simp only
    rw [RankDetOK.det_eq h h' M (by rw [h1, h2])]
    rw [RankDetOK.det_eq h h' ⟨n, n, _⟩ rfl]

theorem fcvLoop_indep {p : Nat} [Fact p.Prime] {rd rd' : RankDet (ZMod p)} (h : RankDetOK rd) (h' : RankDetOK rd') (q : Nat)
    (rnd : Rnd (ZMod p)) (t : Nat) (f : MonMap (ZMod p)) (n k : Nat) (pos : RndPos) (M : CMat (ZMod p)) (b : Bool) (tries : Nat) :
    fcvLoop rd q rnd t f n k pos M b tries = fcvLoop rd' q rnd t f n k pos M b tries := by
  induction k generalizing pos M b tries with
  | zero => rfl
  | succ k ih =>
    rw [fcvLoop, fcvLoop, C84_random_SL h h']
    simp only [fun g => (C84_smooth h h' q g).2, ih]

/-- **C84 (change of variables).**  The same for `find_change_of_variables`. -/
theorem C84_change_of_variables {p : Nat} [Fact p.Prime] {rd rd' : RankDet (ZMod p)} (h : RankDetOK rd) (h' : RankDetOK rd') (q : Nat)
    (rnd : Rnd (ZMod p)) (t : Nat) (f : MonMap (ZMod p)) (N : Int) :
    findChangeOfVariables rd q rnd t f N = findChangeOfVariables rd' q rnd t f N := by
  rw [findChangeOfVariables.eq_def, findChangeOfVariables.eq_def]
  simp only [fun g => (C84_smooth h h' q g).2, fcvLoop_indep h h']

/-- **C84 (Frobenius matrices).**  The constructors and `frob_matrix_ND`, `frob_matrix_J` return the same matrix - or fail in the same
way - with NTL and with FLINT. -/
theorem C84_routine {p : Nat} [Fact p.Prime] {la la' : LinAlg (ZMod p)} (hla : LinAlgOK la) (hla' : LinAlgOK la') (flint flint' : Bool)
    (pre : Bool) (order : Nat → List Nat) : frobRoutine p la flint pre order = frobRoutine p la' flint' pre order := by
  funext K nd g N
  have e : (fun T : CMat (ZMod (p ^ K)) => solveSystemPadic la flint T K) = fun T => solveSystemPadic la' flint' T K :=
    C83_padic la la' hla hla' flint flint' K K le_rfl le_rfl
  rw [frobRoutine, frobRoutine, e]

/-- **C84 (words).**  This includes `solve_system_padic_flint` in machine words. -/
theorem C84_words {p K : Nat} [Fact p.Prime] {la la' : LinAlg (ZMod p)} (hla : LinAlgOK la) (hla' : LinAlgOK la') (flint' : Bool)
    (hK : 1 ≤ K) (hword : p ^ K < 2 ^ 63) :
    (fun T : CMat (ZMod (p ^ K)) => solvePadicWords la T K) = fun T => solveSystemPadic la' flint' T K := by
  have e : (fun T : CMat (ZMod (p ^ K)) => solveSystemPadic la true T K) = fun T => solveSystemPadic la' flint' T K :=
    C83_padic la la' hla hla' true flint' K K le_rfl le_rfl
  rw [← e]
  funext T
  exact (C80_padic la hla T hK hword).1

/-- **C84 (`zeta_function`).**  For the same random numbers `zeta_function` returns the same polynomial and the same matrix, or
fails in the same way, whatever the library. -/
theorem C84_zeta {p : Nat} [Fact p.Prime] {rd rd' : RankDet (ZMod p)} (h : RankDetOK rd) (h' : RankDetOK rd') {la la' : LinAlg (ZMod p)}
    (hla : LinAlgOK la) (hla' : LinAlgOK la') (flint flint' pre : Bool) (order : Nat → List Nat) (rnd : Rnd (ZMod p)) (t : Nat)
    (f : MonMap Int) (abs : Int) (increase better : Bool) :
    zetaMain p rd rnd t (frobRoutine p la flint pre order) f abs increase better =
      zetaMain p rd' rnd t (frobRoutine p la' flint' pre order) f abs increase better := by
  have e : ∀ (q : Nat) (b : Bool) (fp : MonMap (ZMod p)) (fq : MonMap (ZMod q)),
      chooseModel rd rnd t q b fp fq = chooseModel rd' rnd t q b fp fq := by
    intro q b fp fq
    rw [chooseModel, chooseModel, (C84_smooth h h' q fp).1, (C84_smooth h h' q fp).2, C84_change_of_variables h h']
  rw [C84_routine hla hla' flint flint' pre order, zetaMain.eq_def, zetaMain.eq_def]
  simp only [e]

/-- **C84 (programs).**  The same for examples/frob.cc, examples/K3_dwork.cc and examples/K3_dwork2.cc. -/
theorem C84_programs {p : Nat} [Fact p.Prime] {rd rd' : RankDet (ZMod p)} (h : RankDetOK rd) (h' : RankDetOK rd')
    {la la' : LinAlg (ZMod p)} (hla : LinAlgOK la) (hla' : LinAlgOK la') (flint flint' pre : Bool) (order : Nat → List Nat)
    (rnd : Rnd (ZMod p)) (t : Nat) :
    (∀ t' cmp factor tries precision n d f N absPrec,
      frobProgram p rd rnd t t' (frobRoutine p la flint pre order) cmp factor tries precision n d f N absPrec =
      frobProgram p rd' rnd t t' (frobRoutine p la' flint' pre order) cmp factor tries precision n d f N absPrec) ∧
    (∀ lambda, dworkProgram p rd (frobRoutine p la flint pre order) lambda = dworkProgram p rd' (frobRoutine p la' flint' pre order) lambda) ∧
    ∀ lambda, dwork2Program p rd rnd t (frobRoutine p la flint pre order) lambda =
      dwork2Program p rd' rnd t (frobRoutine p la' flint' pre order) lambda := by
  refine ⟨?_, ?_, ?_⟩
  · intro t' cmp factor tries precision n d f N absPrec
    rw [frobProgram, frobProgram, C84_routine hla hla' flint flint' pre order]
    simp only [fun q g => (C84_smooth h h' q g).1, C84_change_of_variables h h']
  · intro lambda
    rw [dworkProgram, dworkProgram, C84_routine hla hla' flint flint' pre order]
    simp only [fun q g => (C84_smooth h h' q g).1]
  · intro lambda
    exact C84_zeta h h' hla hla' flint flint' pre order rnd t _ _ _ _

/-- With precision 1, as in the loop of the random constructors, no lifting takes place, whatever the modulus. -/
theorem padic_one_indep {p K : Nat} [Fact p.Prime] {la la' : LinAlg (ZMod p)} (hla : LinAlgOK la) (hla' : LinAlgOK la')
    (flint flint' : Bool) : (fun T : CMat (ZMod (p ^ K)) => solveSystemPadic la flint T 1) = fun T => solveSystemPadic la' flint' T 1 := by
  have key : ∀ (la : LinAlg (ZMod p)) (flint : Bool) (T : CMat (ZMod (p ^ K))), solveSystemPadic la flint T 1 =
      if T.cols = 0 then .ok (List.range T.rows, CMat.one T.rows) else (solveSystemZZp la true (T.map (fun x => (x.val : ZMod p)))).bind
        (fun r => .ok (r.1, r.2.map (fun x => ((x.val : Nat) : ZMod (p ^ K))))) := by
    intro la flint T
    rw [solveSystemPadic]
    by_cases hc : T.cols = 0
    · rw [if_pos hc, if_pos hc]
    · rw [if_neg hc, if_neg hc]
      refine congrArg (Except.bind _) (funext (fun r => ?_))
      obtain ⟨B, U⟩ := r
      show (if (flint && decide (2 ^ 63 ≤ p ^ K)) = true then _ else _) = Except.ok (B, _)
      by_cases hf : (flint && decide (2 ^ 63 ≤ p ^ K)) = true
      · rw [if_pos hf]
        show Except.ok (B, _) = Except.ok (B, _)
        congr 2
        show CMat.mk' U.rows U.cols (fun i j => (((CMat.mk' U.rows U.cols (fun i j => ((U.e i j).val : Int))).e i j : Int) : ZMod (p ^ K))) =
          CMat.mk' U.rows U.cols _
        unfold CMat.mk'
        congr 1
        funext i j
        dsimp only
        split
        · push_cast
          rfl
        · rfl
      · rw [if_neg hf]
        rfl
  funext T
  rw [key la flint T, key la' flint' T, C83_solve_system la la' hla hla' true true]

/-- **C84 (test programs).**  The verdicts of the test programs for one `n`, `d` are the same. -/
theorem C84_tests {p : Nat} [Fact p.Prime] {rd rd' : RankDet (ZMod p)} (h : RankDetOK rd) (h' : RankDetOK rd')
    {la la' : LinAlg (ZMod p)} (hla : LinAlgOK la) (hla' : LinAlgOK la') (flint flint' pre : Bool) (order : Nat → List Nat)
    (zz : Nat → ZMod p) (rnd rnd' : Rnd (ZMod p)) (draw : Nat → Nat) (t n d : Nat) :
    pathsTestJ la flint zz draw t n d = pathsTestJ la' flint' zz draw t n d ∧
    pathsTestND la flint zz draw t n d = pathsTestND la' flint' zz draw t n d ∧
    basisTestJ la flint zz t n d = basisTestJ la' flint' zz t n d ∧
    basisTestND la flint zz t n d = basisTestND la' flint' zz t n d ∧
    invarianceJ la rd flint pre order zz rnd t n d = invarianceJ la' rd' flint' pre order zz rnd t n d ∧
    invarianceND la rd flint pre order zz rnd rnd' t n d = invarianceND la' rd' flint' pre order zz rnd rnd' t n d ∧
    jndTest la rd flint pre order zz rnd rnd' t = jndTest la' rd' flint' pre order zz rnd rnd' t := by
  have e : ∀ K : Nat, (fun T : CMat (ZMod (p ^ K)) => solveSystemPadic la flint T K) = fun T => solveSystemPadic la' flint' T K :=
    fun K => C83_padic la la' hla hla' flint flint' K K le_rfl le_rfl
  have e1 : ∀ K : Nat, (fun T : CMat (ZMod (p ^ K)) => solveSystemPadic la flint T 1) = fun T => solveSystemPadic la' flint' T 1 :=
    fun K => padic_one_indep hla hla' flint flint'
  refine ⟨?_, ?_, ?_, ?_, ?_, ?_, ?_⟩
  · rw [pathsTestJ, pathsTestJ, e, e1]
  · rw [pathsTestND, pathsTestND, e, e1]
  · rw [basisTestJ, basisTestJ, e, e1]
  · rw [basisTestND, basisTestND, e, e1]
  · rw [invarianceJ, invarianceJ]
    simp only [e, e1, C84_random_SL h h']
  · rw [invarianceND, invarianceND]
    simp only [e, e1, C84_random_SL h h', C84_change_of_variables h h']
  · rw [jndTest, jndTest]
    simp only [e, e1, C84_random_SL h h', C84_change_of_variables h h']

local instance independentPrime7 : Fact (Nat.Prime 7) := ⟨by norm_num⟩

/-- Routines as asked for exist, and `7^5` is one word. -/
example : (∃ la : LinAlg (ZMod 7), LinAlgOK la) ∧ (∃ rd : RankDet (ZMod 7), RankDetOK rd) ∧ 7 ^ 5 < 2 ^ 63 :=
  ⟨exists_linAlg (ZMod 7), exists_rankDet (ZMod 7), by norm_num⟩

/-- The contract leaves freedom: the determinant of a matrix that is not square can be anything. -/
example : ∃ rd rd' : RankDet (ZMod 7), RankDetOK rd ∧ RankDetOK rd' ∧ rd.det ⟨1, 2, fun _ _ => 0⟩ ≠ rd'.det ⟨1, 2, fun _ _ => 0⟩ := by
  obtain ⟨rd, h⟩ := exists_rankDet (ZMod 7)
  refine ⟨⟨rd.rank, fun M => if M.rows = M.cols then rd.det M else 0⟩, ⟨rd.rank, fun M => if M.rows = M.cols then rd.det M else 1⟩,
    ⟨h.rank, fun M n hr hc => ?_⟩, ⟨h.rank, fun M n hr hc => ?_⟩, ?_⟩
  · show (if M.rows = M.cols then rd.det M else 0) = _
    rw [if_pos (hr.trans hc.symm)]
    exact h.det M n hr hc
  · show (if M.rows = M.cols then rd.det M else 1) = _
    rw [if_pos (hr.trans hc.symm)]
    exact h.det M n hr hc
  · simp

end Verif
