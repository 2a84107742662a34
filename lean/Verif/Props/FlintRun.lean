import Verif.Lemmas.FermatRun7
import Verif.Lemmas.FermatRun17
import Verif.Props.FrobMatrixND
import Verif.Props.Unique
import Verif.Props.Programs

/-!
Runs of the functions which call `frob_ND_flint` in which its finite differences are wrong: the curve `x^3 + y^3 + z^3`,
the basis element `xyz`, one term, one digit.
-/

namespace Verif

open Spec MvPolynomial

theorem fermatCubic_wf (q : ℕ) : WFPoly (2 + 1) (fermatCubic q) ∧ fermatCubic q ≠ [] ∧ ∀ e ∈ fermatCubic q, deg e.1 = (3 : ℕ) := by
  refine ⟨⟨?_, ?_⟩, by simp [fermatCubic], ?_⟩
  · intro e he
    simp only [fermatCubic, List.mem_cons, List.not_mem_nil, or_false] at he
    rcases he with rfl | rfl | rfl <;> exact ⟨rfl, by simp [NonNeg]⟩
  · simp only [fermatCubic, List.map_cons, List.map_nil]; unfold LexLt; decide
  · intro e he
    simp only [fermatCubic, List.mem_cons, List.not_mem_nil, or_false] at he
    rcases he with rfl | rfl | rfl <;> rfl

theorem size_cubic : ∀ l ≤ (2 + 1) * 3, (l + 2).choose 2 < 2 ^ 63 := choose_small (by decide +kernel)

theorem fermat_constructed {p : ℕ} [Fact p.Prime] {la : LinAlg (ZMod p)} (hla : LinAlgOK la) {flint : Bool} {precision : ℕ}
    (hprec : 1 ≤ precision) {N : ND (ZMod (p ^ 1))}
    (h : ND.init (padicSolver p 1 la flint precision) p (fermatCubic (p ^ 1)) = .ok N) :
    ConstructedND (padicSolver p 1 la flint precision) p (fermatCubic (p ^ 1)) 2 3 N :=
  ⟨padicSolver_ok hla flint hprec, (fermatCubic_wf _).1, (fermatCubic_wf _).2.2, size_cubic, h⟩

/-- The function, given its sum. -/
theorem fermat_fun {p : ℕ} [hp : Fact p.Prime] {solve : Solver (ZMod (p ^ 1))} {N : ND (ZMod (p ^ 1))}
    (hC : ConstructedND solve p (fermatCubic (p ^ 1)) 2 3 N) (hb : N.basis = [[0, 0, 0], [1, 1, 1]]) (var : NDVar (ZMod (p ^ 1))) :
    frobFunND var frobScale solve N p (fpowStart 2) 1 1 = (do
      let F ← frobCoreND var solve N p (fpowStart 2) [1, 1, 1] 2 1
      let F' ← frobScale p 2 (p * 2 - 1) F
      pure (F', fpowStart 2)) := by
  obtain ⟨e1, e2, -⟩ := hC.init
  have := frobFunND_eq (p := p) (var := var) (scale := frobScale) (solve := solve) (N := N) (T := fpowStart 2)
    (T' := fpowStart 2) (coord := 1) (prec := 1) (ei := [1, 1, 1]) le_rfl (by rw [hb]; rfl) (by rw [e2]; norm_num) hp.out.pos
    (by rfl)
  rw [e1, e2] at this
  exact this

local instance flintRunPrime7 : Fact (Nat.Prime 7) := ⟨by norm_num⟩
local instance flintRunPrime17 : Fact (Nat.Prime 17) := ⟨by norm_num⟩

/-- **C49 (`frob_ND_flint`; the code is wrong).**  The curve `x^3 + y^3 + z^3` modulo 7, the basis element `xyz`, one term of the
series: `frob_ND_ZZ_p` returns the column, and `frob_ND_flint`, which is what `frob_ND` and `frob_matrix_ND` call, returns
without an error a vector which is not the column. -/
theorem C49_flint_wrong (la : LinAlg (ZMod 7)) (hla : LinAlgOK la) (flint : Bool) (precision : ℕ) (hprec : 1 ≤ precision) :
    ∃ N, ConstructedND (padicSolver 7 1 la flint precision) 7 (fermatCubic (7 ^ 1)) 2 3 N ∧ N.basis = [[0, 0, 0], [1, 1, 1]] ∧
      (∃ r, frobNDP (padicSolver 7 1 la flint precision) N 7 true (fpowStart 2) 1 1 = .ok r ∧
        FrobColumn (toPoly (2 + 1) (fermatCubic (7 ^ 1))) 3 7 N.basis 2 1 (ev 2 [1, 1, 1]) r.1.e) ∧
      ∃ r, frobNDFlint (padicSolver 7 1 la flint precision) N 7 (fpowStart 2) 1 1 = .ok r ∧
        ¬ FrobColumn (toPoly (2 + 1) (fermatCubic (7 ^ 1))) 3 7 N.basis 2 1 (ev 2 [1, 1, 1]) r.1.e := by
  have hs := runSolver_padic le_rfl la hla flint precision hprec
  obtain ⟨N, h1, h2, h3⟩ := fermatTest_spec (fermat7_flint (padicSolver 7 1 la flint precision))
  obtain ⟨N', h1', -, h3'⟩ := fermatTest_spec (fermat7_direct (padicSolver 7 1 la flint precision))
  obtain rfl := Except.ok.inj (h1.symm.trans h1')
  obtain ⟨F, f1, f2, f3, f4⟩ := sumIs_spec h3
  obtain ⟨G, g1, g2, g3, g4⟩ := sumIs_spec h3'
  rw [hs] at h1 f1 g1
  have hC := fermat_constructed hla hprec h1
  have hb : N.basis[1]? = some [1, 1, 1] := by rw [h2]; rfl
  have hv : padicValNat 7 (7 * 2 - 1).factorial = 1 := by
    rw [show (7 * 2 - 1 : ℕ).factorial = 7 ^ 1 * 889574400 by decide, padicValNat.mul (by norm_num) (by norm_num),
      padicValNat.prime_pow, padicValNat.eq_zero_of_not_dvd (by norm_num)]
  have hdvd : ¬ 7 ^ 2 ∣ (7 * (2 + 1 - 1) - 1).factorial := by decide
  have key : ∀ X : CVec (ZMod (7 ^ 1)), ∃ X', frobScale 7 2 (7 * 2 - 1) X = .ok X' ∧ X'.len = X.len ∧
      ∀ i, i < X.len → (889574400 : ZMod (7 ^ 1)) * X'.e i = X.e i := fun X => by
    obtain ⟨s1, s2, -⟩ := frobScale_ok (p := 7) (n := 2) (a := 7 * 2 - 1) (by norm_num) (by norm_num) X
    obtain ⟨X', e⟩ := s2 hdvd
    obtain ⟨e1, e2⟩ := s1 X' e
    refine ⟨X', e, e1, fun i hi => ?_⟩
    have := e2 i hi
    rw [hv] at this
    rw [show ((7 * 2 - 1 : ℕ).factorial / 7 ^ 1 * 7 ^ (1 - (2 - 1))) = 889574400 by decide] at this
    simpa using this
  obtain ⟨F', F1, F2, F3⟩ := key F
  obtain ⟨G', G1, G2, G3⟩ := key G
  have hF : frobNDFlint (padicSolver 7 1 la flint precision) N 7 (fpowStart 2) 1 1 = .ok (F', fpowStart 2) := by
    rw [frobNDFlint_eq, fermat_fun hC h2, ← hs, hs, f1, Res.bind_ok, F1]; rfl
  have hG : frobNDP (padicSolver 7 1 la flint precision) N 7 true (fpowStart 2) 1 1 = .ok (G', fpowStart 2) := by
    rw [frobNDP, fermat_fun hC h2, g1, Res.bind_ok, G1]; rfl
  have hcol := ((C49_frob_ND_ZZ_p le_rfl hC (by norm_num) true 1 1 _ hb le_rfl (by decide) [] (fpowStart 2) rfl).1 _ hG).2.2
  refine ⟨N, hC, h2, ⟨_, hG, hcol⟩, _, hF, fun hw => ?_⟩
  have := C66_column_unique le_rfl hla hprec (C45_base_ND hC) hcol hw 1 (by show 1 < N.basis.length; rw [h2]; decide)
  rw [show frobFact 7 (poleOrder 2 3 [1, 1, 1]) 1 = (7 * 2 - 1).factorial from rfl, hv] at this
  have h5 := F3 1 (by rw [f2]; decide)
  have h6 := G3 1 (by rw [g2]; decide)
  rw [f4] at h5
  rw [g4] at h6
  simp only [Nat.sub_self, pow_zero, one_mul] at this
  change G'.e 1 = F'.e 1 at this
  rw [this, h5] at h6
  exact absurd h6 (by decide)

/-- **C64 (`frob_matrix_ND`; the code is wrong).**  So the matrix returned by `frob_matrix_ND` for that curve with `N = [0, 1]`
is not the Frobenius matrix, whatever the number of threads and the order of the parallel loop. -/
theorem C64_flint_wrong (la : LinAlg (ZMod 7)) (hla : LinAlgOK la) (flint : Bool) (precision : ℕ) (hprec : 1 ≤ precision) :
    ∃ N, ConstructedND (padicSolver 7 1 la flint precision) 7 (fermatCubic (7 ^ 1)) 2 3 N ∧
      ∀ (pre : Bool) (order : List ℕ), order.Perm (List.range N.basis.length) →
        ∃ r, frobMatrixND (padicSolver 7 1 la flint precision) N 7 pre order (fpowStart 2) [0, 1] = .ok r ∧
          ¬ IsFrobenius (toPoly (2 + 1) (fermatCubic (7 ^ 1))) 3 7 N.basis [0, 1] r.1.e := by
  obtain ⟨N, hC, h2, -, r, hr, hw⟩ := C49_flint_wrong la hla flint precision hprec
  have hb : N.basis[1]? = some [1, 1, 1] := by rw [h2]; rfl
  refine ⟨N, hC, fun pre order ho => ?_⟩
  obtain ⟨c1, c2⟩ := C51_columns (p := 7) hC (by norm_num) (T := fpowStart 2) ⟨[], rfl⟩ pre ho [0, 1]
  obtain ⟨M, hM⟩ := c2.2 ⟨rfl, fun i b Ni hi hNi hpos => by
    rw [h2] at hi
    match i with
    | 0 =>
      obtain rfl := Option.some.inj hi
      obtain rfl := Option.some.inj hNi
      omega
    | 1 =>
      obtain rfl := Option.some.inj hi
      obtain rfl := Option.some.inj hNi
      exact ⟨r, hr⟩
    | i + 2 => cases hi⟩
  refine ⟨M, hM, fun hF => hw ?_⟩
  obtain ⟨Ni, e1, -, e3⟩ := hF 1 _ hb
  obtain rfl : (1 : ℤ) = Ni := Option.some.inj e1
  obtain ⟨v, T', f1, f2, f3⟩ := ((c1 M hM).2.2.2 1 _ 1 hb rfl).2 (by norm_num)
  obtain rfl := Except.ok.inj (hr.symm.trans f1)
  have := e3 (by norm_num)
  simp only [f3] at this
  exact this

/-- There are elimination routines as required. -/
example : ∃ la : LinAlg (ZMod 7), LinAlgOK la ∧ 1 ≤ 1 := by
  obtain ⟨la, hla⟩ := exists_linAlg (ZMod 7)
  exact ⟨la, hla, le_rfl⟩

/-- The curve modulo 17: an assertion fails in `frob_ND_flint`. -/
theorem fermat17_fails (la : LinAlg (ZMod 17)) (hla : LinAlgOK la) (flint : Bool) (precision : ℕ) (hprec : 1 ≤ precision) :
    ∃ N, ConstructedND (padicSolver 17 1 la flint precision) 17 (fermatCubic (17 ^ 1)) 2 3 N ∧ N.basis = [[0, 0, 0], [1, 1, 1]] ∧
      frobNDFlint (padicSolver 17 1 la flint precision) N 17 (fpowStart 2) 1 1 = .error .assertFail := by
  have hs := runSolver_padic le_rfl la hla flint precision hprec
  obtain ⟨N, h1, h2, h3⟩ := fermatTest_spec (fermat17_flint (padicSolver 17 1 la flint precision))
  have f1 := sumFails_spec h3
  rw [hs] at h1 f1
  have hC := fermat_constructed hla hprec h1
  exact ⟨N, hC, h2, by rw [frobNDFlint_eq, fermat_fun hC h2, f1]; rfl⟩

/-- **C64 (`frob_matrix_ND` fails; the code is wrong).**  The curve modulo 17 with `precision = 1` and `N = [0, 1]`, the values of
`default_args`: an assertion of `frob_matrix_ND` fails, whatever the number of threads and the order of the parallel loop, while
`frob_ND_ZZ_p` returns the column. -/
theorem C64_default_args_wrong (la : LinAlg (ZMod 17)) (hla : LinAlgOK la) (flint : Bool) (precision : ℕ) (hprec : 1 ≤ precision) :
    (∃ a, defaultArgs 17 2 3 = .ok a ∧ a.precision = 1 ∧ a.N = [0, 1]) ∧
    ∃ N, ConstructedND (padicSolver 17 1 la flint precision) 17 (fermatCubic (17 ^ 1)) 2 3 N ∧ N.basis = [[0, 0, 0], [1, 1, 1]] ∧
      (∃ r, frobNDP (padicSolver 17 1 la flint precision) N 17 true (fpowStart 2) 1 1 = .ok r ∧
        FrobColumn (toPoly (2 + 1) (fermatCubic (17 ^ 1))) 3 17 N.basis 2 1 (ev 2 [1, 1, 1]) r.1.e) ∧
      ∀ (pre : Bool) (order : List ℕ), order.Perm (List.range N.basis.length) →
        frobMatrixND (padicSolver 17 1 la flint precision) N 17 pre order (fpowStart 2) [0, 1] = .error .assertFail := by
  obtain ⟨N, hC, h2, hf⟩ := fermat17_fails la hla flint precision hprec
  have hb : N.basis[1]? = some [1, 1, 1] := by rw [h2]; rfl
  have hok := C49_frob_ND_ZZ_p le_rfl hC (by norm_num) true 1 1 _ hb le_rfl (by decide) [] (fpowStart 2) rfl
  obtain ⟨r, hr⟩ := hok.2.1 (by decide +kernel)
  refine ⟨⟨_, rfl, rfl, rfl⟩, N, hC, h2, ⟨r, hr, (hok.1 r hr).2.2⟩, fun pre order ho => ?_⟩
  obtain ⟨e1, e2, -⟩ := hC.init
  have hprep : frobPrepare pre N.f (fpowStart 2) [0, 1] = .ok (fpowStart 2) := by cases pre <;> rfl
  have h0 : ∀ s, s.1 = fpowStart 2 → frobIterND (padicSolver 17 1 la flint precision) N 17 [0, 1] s 0 = .ok s := fun s _ => by
    rw [frobIterND, h2, e1, e2]; rfl
  have h1 : ∀ s, s.1 = fpowStart 2 → frobIterND (padicSolver 17 1 la flint precision) N 17 [0, 1] s 1 = .error .assertFail :=
    fun s hs => by
    rw [frobIterND, h2, e1, e2]
    show (do
      let r ← frobNDFlint (padicSolver 17 1 la flint precision) N 17 s.1 1 1
      if r.1.len = [[(0 : ℤ), 0, 0], [1, 1, 1]].length then pure (r.2, upd s.2 1 r.1) else .error .abort) = _
    rw [hs, hf]; rfl
  rw [frobMatrixND, e1, show decide (2 = [(0 : ℤ), 1].length) = true from rfl, check_true, Res.bind_ok, hprep, Res.bind_ok]
  have horder : order = [0, 1] ∨ order = [1, 0] := by
    rw [h2] at ho
    exact List.perm_pair.1 ho
  rcases horder with rfl | rfl
  · rw [List.foldlM_cons, h0 _ rfl, Res.bind_ok, List.foldlM_cons, h1 _ rfl]; rfl
  · rw [List.foldlM_cons, h1 _ rfl]; rfl

theorem fermatCubic_pderiv (q : ℕ) (i : Fin (2 + 1)) : pderiv i (toPoly (2 + 1) (fermatCubic q)) = 3 * X i ^ 2 := by
  have h : toPoly (2 + 1) (fermatCubic q) = X 2 ^ 3 + (X 1 ^ 3 + X 0 ^ 3) := by
    rw [fermatCubic, toPoly_cons, toPoly_cons, toPoly_cons, toPoly_nil, add_zero, X_pow_eq_monomial,
      X_pow_eq_monomial, X_pow_eq_monomial]
    congr 1
    · refine congrArg (fun a => monomial a (1 : ZMod q)) ?_
      ext i; fin_cases i <;> simp [expo_apply]
    congr 1
    · refine congrArg (fun a => monomial a (1 : ZMod q)) ?_
      ext i; fin_cases i <;> simp [expo_apply]
    · refine congrArg (fun a => monomial a (1 : ZMod q)) ?_
      ext i; fin_cases i <;> simp [expo_apply]
  rw [h]
  simp only [map_add, pderiv_pow]
  fin_cases i <;> simp [pderiv_X]

/-- Both tests accept the curve. -/
theorem fermatCubic_tests {p q : ℕ} [hp : Fact p.Prime] [NeZero q] (hpq : p ∣ q) (hp3 : p ≠ 3) (la : RankDet (ZMod p)) (hla : RankDetOK la) :
    isSmooth la q (fermatCubic p) = .ok true ∧ isND la q (fermatCubic p) = .ok true := by
  obtain ⟨h1, h2, h3⟩ := fermatCubic_wf p
  have hz : NoCommonZero.{0} (fun i => X i * pderiv i (toPoly (2 + 1) (fermatCubic p))) := by
    intro K _ _ x hx
    funext i
    have h1 := hx i
    beta_reduce at h1
    rw [fermatCubic_pderiv, map_mul, aeval_X, map_mul, map_pow, aeval_X, map_ofNat] at h1
    have h4 : (3 : K) ≠ 0 := by
      haveI : CharP K p := (Algebra.charP_iff (ZMod p) K p).1 inferInstance
      intro h0
      have : ((3 : ℕ) : K) = 0 := by exact_mod_cast h0
      rw [CharP.cast_eq_zero_iff K p] at this
      exact hp3 ((Nat.prime_dvd_prime_iff_eq Fact.out Nat.prime_three).1 this)
    simpa [h4] using h1
  obtain ⟨⟨b, e, hb⟩, c, e', hc⟩ := C60_tests hpq la hla _ h1 h2 h3 (by norm_num) size_cubic
  refine ⟨?_, by rw [e', hc.2 hz]⟩
  rw [e, hb.2 (fun K _ _ x hx => hz K x (fun i => by
    have := hx i
    beta_reduce at this ⊢
    rw [map_mul, this, mul_zero]))]

/-- The branch of `zeta_function` for non-degenerate models. -/
theorem fermat17_routine (la : LinAlg (ZMod 17)) (hla : LinAlgOK la) (flint pre : Bool) {order : ℕ → List ℕ}
    (ho : ∀ b, (order b).Perm (List.range b)) :
    frobRoutine 17 la flint pre order 1 true (fermatCubic (17 ^ 1)) [0, 1] = .error .assertFail := by
  obtain ⟨-, N, hC, -, -, h⟩ := C64_default_args_wrong la hla flint 1 le_rfl
  unfold frobRoutine
  rw [if_pos rfl]
  have h1 : ND.init (fun T => solveSystemPadic la flint T 1) 17 (fermatCubic (17 ^ 1)) = .ok N := hC.built
  have h2 := h pre (order N.basis.length) (ho _)
  rw [h1, Res.bind_ok, hC.init.1]
  change (frobMatrixND (padicSolver 17 1 la flint 1) N 17 pre (order N.basis.length) (fpowStart 2) [0, 1] >>= _) = _
  rw [h2]; rfl

/-- **C65 (`zeta_function` fails; the code is wrong).**  For the smooth plane curve `x^3 + y^3 + z^3`, `p = 17` and the default options
`zeta_function` stops with a failed assertion, whatever the other options, the random numbers, the number of threads and the order of the
parallel loop. -/
theorem C65_default_cubic_wrong (la : RankDet (ZMod 17)) (hla : RankDetOK la) (rnd : Rnd (ZMod 17)) (t : ℕ) (la' : LinAlg (ZMod 17))
    (hla' : LinAlgOK la') (flint pre : Bool) {order : ℕ → List ℕ} (ho : ∀ b, (order b).Perm (List.range b)) (abs : ℤ) (habs : abs ≤ 0)
    (increase better : Bool) :
    zetaMain 17 la rnd t (frobRoutine 17 la' flint pre order) [([0, 0, 3], 1), ([0, 3, 0], 1), ([3, 0, 0], 1)] abs increase better =
      .error .assertFail := by
  have hz : choosePrec 17 2 3 abs increase = .ok ⟨1, [0, 1], [3, 1, 1], true⟩ := by
    rw [choosePrec]
    show (if 0 < abs then _ else _) = _
    rw [if_neg (by omega)]
  have hred : ∀ q : ℕ, reduceCoeffs q [([0, 0, 3], 1), ([0, 3, 0], 1), ([3, 0, 0], 1)] = fermatCubic q := fun q => by
    simp [reduceCoeffs, fermatCubic]
  obtain ⟨t1, t2⟩ := fermatCubic_tests (p := 17) (q := 17 ^ 1) (by norm_num) (by norm_num) la hla
  have hm : chooseModel la rnd t (17 ^ 1) better (fermatCubic 17) (fermatCubic (17 ^ 1)) = .ok (some (true, fermatCubic (17 ^ 1))) := by
    rw [chooseModel, t1, Res.bind_ok, if_pos rfl, t2, Res.bind_ok]
    rfl
  show (choosePrec 17 2 3 abs increase >>= _) = _
  rw [hz, Res.bind_ok]
  show (chooseModel la rnd t (17 ^ 1) better (reduceCoeffs 17 _) (reduceCoeffs (17 ^ 1) _) >>= _) = _
  rw [hred, hred, hm, Res.bind_ok]
  show (frobRoutine 17 la' flint pre order 1 true (fermatCubic (17 ^ 1)) [0, 1] >>= _) = _
  rw [fermat17_routine la' hla' flint pre ho]
  rfl

/-- The routines and an order of the loop as required, for the default options. -/
example : ∃ (la : RankDet (ZMod 17)) (la' : LinAlg (ZMod 17)), RankDetOK la ∧ LinAlgOK la' ∧
    (∀ b, (List.range b).Perm (List.range b)) ∧ zetaMain 17 la ⟨fun _ => 0, fun _ => 0⟩ 0 (frobRoutine 17 la' true false List.range)
      [([0, 0, 3], 1), ([0, 3, 0], 1), ([3, 0, 0], 1)] 0 true true = .error .assertFail := by
  obtain ⟨la, hla⟩ := exists_rankDet (ZMod 17)
  obtain ⟨la', hla'⟩ := exists_linAlg (ZMod 17)
  exact ⟨la, la', hla, hla', fun b => List.Perm.refl _,
    C65_default_cubic_wrong la hla _ 0 la' hla' true false (fun b => List.Perm.refl _) 0 le_rfl true true⟩

end Verif
