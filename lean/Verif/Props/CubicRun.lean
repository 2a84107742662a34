import Verif.Lemmas.CubicRun
import Verif.Props.FlintRun
import Verif.Props.ZetaRun

/-!
Runs of the functions which call `frob_ND_flint` in which its finite differences are right: the curve `x^3 + y^3 + z^3 + y z^2` with
the values of `default_args` for `p = 17`.
-/

namespace Verif

open Spec MvPolynomial

local instance cubicRunPrime17 : Fact (Nat.Prime 17) := ⟨by norm_num⟩

theorem cubicYZ_wf (q : ℕ) : WFPoly (2 + 1) (cubicYZ q) ∧ cubicYZ q ≠ [] ∧ ∀ e ∈ cubicYZ q, deg e.1 = (3 : ℕ) := by
  refine ⟨⟨?_, ?_⟩, by simp [cubicYZ], ?_⟩
  · intro e he
    simp only [cubicYZ, List.mem_cons, List.not_mem_nil, or_false] at he
    rcases he with rfl | rfl | rfl | rfl <;> exact ⟨rfl, by simp [NonNeg]⟩
  · simp only [cubicYZ, List.map_cons, List.map_nil]; unfold LexLt; decide
  · intro e he
    simp only [cubicYZ, List.mem_cons, List.not_mem_nil, or_false] at he
    rcases he with rfl | rfl | rfl | rfl <;> rfl

theorem cubicInt_wf : WFPoly (2 + 1) [([0, 0, 3], (1 : ℤ)), ([0, 1, 2], 1), ([0, 3, 0], 1), ([3, 0, 0], 1)] ∧
    ([([0, 0, 3], (1 : ℤ)), ([0, 1, 2], 1), ([0, 3, 0], 1), ([3, 0, 0], 1)] : MonMap Int) ≠ [] ∧
    ∀ e ∈ ([([0, 0, 3], (1 : ℤ)), ([0, 1, 2], 1), ([0, 3, 0], 1), ([3, 0, 0], 1)] : MonMap Int), deg e.1 = (3 : ℕ) := by
  refine ⟨⟨?_, ?_⟩, by simp, ?_⟩
  · intro e he
    simp only [List.mem_cons, List.not_mem_nil, or_false] at he
    rcases he with rfl | rfl | rfl | rfl <;> exact ⟨rfl, by simp [NonNeg]⟩
  · simp only [List.map_cons, List.map_nil]; unfold LexLt; decide
  · intro e he
    simp only [List.mem_cons, List.not_mem_nil, or_false] at he
    rcases he with rfl | rfl | rfl | rfl <;> rfl

/-- The constructor accepts the curve. -/
theorem cubicYZ_constructed {la : LinAlg (ZMod 17)} (hla : LinAlgOK la) (flint : Bool) {precision : ℕ} (hprec : 1 ≤ precision) :
    ConstructedND (padicSolver 17 1 la flint precision) 17 (cubicYZ (17 ^ 1)) 2 3 (cubicObj (17 ^ 1)) := by
  refine ⟨padicSolver_ok hla flint hprec, (cubicYZ_wf _).1, (cubicYZ_wf _).2.2, size_cubic, ?_⟩
  have h := cubicInit_true (padicSolver 17 1 la flint precision)
  rw [cubicInit, tableSolver_padic le_rfl la hla flint precision hprec cubicTab_good] at h
  split at h
  · rename_i N hN
    rw [hN, sameND_spec h]
  · cases h

/-- The exponent vectors of the plane cubics. -/
theorem tuple_cubic {v : IVec} (h : IsTuple 3 (3 : ℕ) v) : ∃ i < 10, (cubicPolys.getD i (([], []), [])).1 = ([51, 51, 51], v) := by
  obtain ⟨h1, h2, h3⟩ := h
  obtain ⟨a, b, c, rfl⟩ := List.length_eq_three.1 h1
  have ha : 0 ≤ a := h2 a (by simp)
  have hb : 0 ≤ b := h2 b (by simp)
  have hc : 0 ≤ c := h2 c (by simp)
  have hs : a + (b + (c + 0)) = 3 := h3
  have e1 : a ≤ 3 := by omega
  have e2 : b ≤ 3 := by omega
  obtain rfl : c = 3 - a - b := by omega
  interval_cases a <;> interval_cases b <;> first | omega | decide

/-- **C49 (the finite differences are right).**  For the curve `x^3 + y^3 + z^3 + y z^2` modulo 17 the coefficient matrices of all the batched
reductions of `frob_ND_flint` are nested, for the linear algebra library and the solver used by the code. -/
theorem C49_cubic_batch {la : LinAlg (ZMod 17)} (hla : LinAlgOK la) (flint : Bool) {precision : ℕ} (hprec : 1 ≤ precision) :
    FlintBatchOK (17 ^ 1) 17 2 3 (padicSolver 17 1 la flint precision) (cubicObj (17 ^ 1)) := by
  have hsolve : ∀ u v, getNDPolyZ (padicSolver 17 1 la flint precision) (cubicObj (17 ^ 1)) u v =
      getNDPolyZ (dimSolver cubicTab) (cubicObj (17 ^ 1)) u v := by
    have h := cubicLevels
    simp only [List.all_cons, List.all_nil, Bool.and_eq_true, Bool.and_true] at h
    obtain ⟨h3, h6, h7⟩ := h
    refine getNDPolyZ_solver (fun i hi => ?_) (levelTest_spec le_rfl la hla flint precision hprec cubicTab_good h7)
    have hi : i < 2 := hi
    interval_cases i
    · exact levelTest_spec le_rfl la hla flint precision hprec cubicTab_good h3
    · exact levelTest_spec le_rfl la hla flint precision hprec cubicTab_good h6
  have hgood : ∀ i, i < 11 → ∀ poly, getNDPolyZ (dimSolver cubicTab) (cubicObj (17 ^ 1)) (cubicPolys.getD i (([], []), [])).1.1
      (cubicPolys.getD i (([], []), [])).1.2 = .ok poly → GoodPolys 9 4 poly := by
    intro i hi poly e
    refine goodPolys_of_lit (cubicPolys_all i hi) (List.all_eq_true.1 cubicPolys_lit _ ?_) e
    rw [List.getD_eq_getElem _ _ (show i < cubicPolys.length from hi)]
    exact List.getElem_mem _
  refine flintBatchOK_digit rfl rfl (by norm_num) (fun v hv poly e => ?_) (fun v hv hpos poly e => ?_)
  · obtain ⟨i, hi, h⟩ := tuple_cubic hv
    rw [hsolve] at e
    refine hgood i (by omega) poly ?_
    rw [h]
    exact e
  · have hv1 : v = [1, 1, 1] := by
      obtain ⟨h1, h2, h3⟩ := hv
      obtain ⟨a, b, c, rfl⟩ := List.length_eq_three.1 h1
      have ha := hpos a (by simp)
      have hb := hpos b (by simp)
      have hc := hpos c (by simp)
      have hs : a + (b + (c + 0)) = 3 := h3
      obtain ⟨rfl, rfl, rfl⟩ : a = 1 ∧ b = 1 ∧ c = 1 := by omega
      rfl
    subst hv1
    rw [hsolve] at e
    exact hgood 10 (by norm_num) poly e

/-- A library as required; the column of the form with pole of order 2, for which `frob_ND_flint` is run. -/
example : ∃ la : LinAlg (ZMod 17), LinAlgOK la ∧
    ConstructedND (padicSolver 17 1 la true 1) 17 (cubicYZ (17 ^ 1)) 2 3 (cubicObj (17 ^ 1)) ∧
    FlintBatchOK (17 ^ 1) 17 2 3 (padicSolver 17 1 la true 1) (cubicObj (17 ^ 1)) ∧
    (cubicObj (17 ^ 1)).basis[1]? = some [1, 2, 0] ∧ poleOrder 2 3 [1, 2, 0] = 2 := by
  obtain ⟨la, hla⟩ := exists_linAlg (ZMod 17)
  exact ⟨la, hla, cubicYZ_constructed hla true le_rfl, C49_cubic_batch hla true le_rfl, rfl, by decide⟩

/-- The divisions of the series are possible. -/
theorem cubic_division {p : ℕ} [hp : Fact p.Prime] {solve : Solver (ZMod (p ^ 1))} {f : MonMap (ZMod (p ^ 1))} {D : DR (ZMod (p ^ 1))}
    (hC : Constructed solve p f 2 3 D) (hp3 : 3 ≤ p) : ¬ DivisionMayFail p 2 3 D.basis [0, 1] := by
  rintro ⟨b, hb, Ni, hNi, hpos, hdvd⟩
  obtain ⟨e1, e2, hI⟩ := hC.init
  obtain ⟨i, hi⟩ := List.mem_iff_getElem?.1 hb
  have hpole := basis_pole hI.basis (by have := hI.ok.hd; omega) hi
  rw [e1, e2] at hpole
  obtain ⟨hp1, hp2⟩ : 1 ≤ poleOrder 2 3 b ∧ poleOrder 2 3 b ≤ 2 := ⟨hpole.1, hpole.2.1⟩
  generalize poleOrder 2 3 b = m at *
  interval_cases m
  · obtain rfl : (0 : ℤ) = Ni := by simpa using hNi
    omega
  · obtain rfl : (1 : ℤ) = Ni := by simpa using hNi
    have e : p * (2 + (1 : ℤ).toNat - 1) - 1 = p * 1 + (p - 1) := by
      rw [show 2 + (1 : ℤ).toNat - 1 = 2 from rfl]
      omega
    rw [e, padicValNat_dvd_iff_le (Nat.factorial_ne_zero _), padicValNat_factorial_mul_add 1 (by omega),
      padicValNat_factorial_mul] at hdvd
    simp at hdvd

/-- The smooth, non-degenerate model of the curve and its precision. -/
theorem cubicYZ_model (la : RankDet (ZMod 17)) (hla : RankDetOK la) (la' : LinAlg (ZMod 17)) (hla' : LinAlgOK la') (flint : Bool) (abs : ℤ)
    (habs : abs ≤ 0) (increase : Bool) :
    (∀ q : ℕ, reduceCoeffs q [([0, 0, 3], 1), ([0, 1, 2], 1), ([0, 3, 0], 1), ([3, 0, 0], 1)] = cubicYZ q) ∧
    choosePrec 17 2 3 abs increase = .ok ⟨1, [0, 1], [3, 1, 1], true⟩ ∧
    NoCommonZero.{0} (fun i => X i * pderiv i (toPoly (2 + 1) (cubicYZ 17))) ∧
    NoCommonZero.{0} (fun i => pderiv i (toPoly (2 + 1) (cubicYZ 17))) ∧
    DegreeInIdeal ((3 - 1) * (2 + 1) + 1) (fun i => X i * pderiv i (toPoly (2 + 1) (cubicYZ 17))) := by
  have hC := cubicYZ_constructed hla' flint (le_refl 1)
  have hred : ∀ q : ℕ, reduceCoeffs q [([0, 0, 3], 1), ([0, 1, 2], 1), ([0, 3, 0], 1), ([3, 0, 0], 1)] = cubicYZ q := fun q => by
    simp [reduceCoeffs, cubicYZ]
  have hz' : choosePrec 17 2 3 abs increase = .ok ⟨1, [0, 1], [3, 1, 1], true⟩ := by
    rw [choosePrec]
    show (if 0 < abs then _ else _) = _
    rw [if_neg (by omega)]
  have hdvd : 17 ∣ 17 ^ 1 := by norm_num
  obtain ⟨w1, w2, w3⟩ := cubicYZ_wf (17 ^ 1)
  obtain ⟨v1, v2, v3⟩ := cubicYZ_wf 17
  have hmod : NondegMod hdvd (toPoly (2 + 1) (cubicYZ (17 ^ 1))) :=
    ((C59_nondegenerate le_rfl hdvd hla' flint le_rfl w1 w2 w3 size_cubic (by norm_num)).1.1 ⟨_, hC.built⟩).2.2
  have hnd : NoCommonZero.{0} (fun i => X i * pderiv i (toPoly (2 + 1) (cubicYZ 17))) := by
    have h : reduce hdvd (toPoly (2 + 1) (cubicYZ (17 ^ 1))) = toPoly (2 + 1) (cubicYZ 17) := by
      rw [← hred, ← hred]
      show map _ _ = _
      rw [toPoly_reduce, toPoly_reduce, map_map]
      congr 2
      exact RingHom.ext_int _ _
    rw [NondegMod, h] at hmod
    exact hmod
  have hsm : NoCommonZero.{0} (fun i => pderiv i (toPoly (2 + 1) (cubicYZ 17))) := fun K _ _ x hx => hnd K x (fun i => by
    have := hx i
    beta_reduce at this ⊢
    rw [map_mul, this, mul_zero])
  have hideal : DegreeInIdeal ((3 - 1) * (2 + 1) + 1) (fun i => X i * pderiv i (toPoly (2 + 1) (cubicYZ 17))) := by
    obtain ⟨-, c, e, hc⟩ := C60_tests hdvd la hla _ v1 v2 v3 (by norm_num) size_cubic
    obtain ⟨c', e', hc', -⟩ := C37_isND.{0} hdvd la hla _ v1 v2 v3 (by norm_num) size_cubic
    rw [e] at e'
    cases e'
    exact hc'.1 (hc.2 hnd)
  exact ⟨hred, hz', hnd, hsm, hideal⟩

/-- **C65 (`zeta_function`, a curve with the default options).**  For the curve `x^3 + y^3 + z^3 + y z^2`, `p = 17` and the default
number of digits `zeta_function` computes the truncated Frobenius matrix `Φ` on the basis `1`, `x y^2`, whatever the other
options, the linear algebra library, the random numbers, the number of threads and the order of the parallel loop.  Let `Ψ` be any matrix over the
17-adic integers that `Φ` approximates, whose characteristic polynomial is an integer polynomial `P` of degree 2 with the properties
of a Frobenius polynomial; then `zeta_function` returns `P`.  For `x^3 + y^3 + z^3` it fails (`C65_default_cubic_wrong`). -/
theorem C65_default_cubic (la : RankDet (ZMod 17)) (hla : RankDetOK la) (rnd : Rnd (ZMod 17)) (t : ℕ) (la' : LinAlg (ZMod 17))
    (hla' : LinAlgOK la') (flint pre : Bool) {order : ℕ → List ℕ} (ho : ∀ b, (order b).Perm (List.range b)) (abs : ℤ) (habs : abs ≤ 0)
    (increase better : Bool) :
    defaultArgs 17 2 3 = .ok ⟨1, [0, 1], [3, 1, 1]⟩ ∧
    ConstructedND (padicSolver 17 1 la' flint 1) 17 (cubicYZ (17 ^ 1)) 2 3 (cubicObj (17 ^ 1)) ∧
    ∃ Φ : Matrix (Fin 2) (Fin 2) (ZMod (17 ^ 1)),
      IsFrobenius (toPoly (2 + 1) (cubicYZ (17 ^ 1))) 3 17 [[0, 0, 0], [1, 2, 0]] [0, 1] (CMat.ofMatrix Φ).e ∧
      ∀ (Ψ : Matrix (Fin 2) (Fin 2) ℤ_[17]) (P : Polynomial ℤ),
        Approximates 17 2 3 1 [[0, 0, 0], [1, 2, 0]] [0, 1] (Φ.map (fun x => (x.val : ℤ))) Ψ →
        Ψ.charpoly = P.map (Int.castRingHom ℤ_[17]) → P.Monic → P.natDegree = 2 → WeilRoots P 17 1 → FunctionalEquation P 2 17 1 1 →
        zetaMain 17 la rnd t (frobRoutine 17 la' flint pre order)
            [([0, 0, 3], 1), ([0, 1, 2], 1), ([0, 3, 0], 1), ([3, 0, 0], 1)] abs increase better =
          .ok (some ([P.coeff 0, P.coeff 1, P.coeff 2], CMat.ofMatrix (Φ.map (fun x => (x.val : ℤ))))) := by
  have hC := cubicYZ_constructed hla' flint (le_refl 1)
  obtain ⟨hred, hz', hnd, hsm, hideal⟩ := cubicYZ_model la hla la' hla' flint abs habs increase
  obtain ⟨f1, f2, f3⟩ := cubicInt_wf
  refine ⟨rfl, hC, ?_⟩
  rcases C65_digits_partial (n := 2) (d := 3) (by norm_num) la hla rnd t hla' flint pre ho _ f1 f2 f3 abs
    (termsFit_three (by norm_num) (by omega)) increase better _ rfl with ⟨-, h | h | h⟩ | ⟨-, -, h⟩ | h
  · exact absurd (by decide) h
  · cases hz'.symm.trans h
  · rw [hred] at h; exact absurd hsm h
  · rw [hred] at h; exact absurd hnd h
  obtain ⟨a, z, h0, nd, g, D, ha, hz, -, -, -, hM, hCD, hN, hres⟩ := h
  obtain rfl := Except.ok.inj (hz'.symm.trans hz)
  obtain ⟨rfl, rfl⟩ := hM.kept (by rw [hred]; exact hideal)
  obtain ⟨N, rfl, hCN⟩ := hN rfl
  have hNeq : ∀ M : ND (ZMod (17 ^ 1)), ConstructedND (padicSolver 17 1 la' flint 1) 17 (reduceCoeffs (17 ^ 1)
      [([0, 0, 3], 1), ([0, 1, 2], 1), ([0, 3, 0], 1), ([3, 0, 0], 1)]) 2 3 M → M = cubicObj (17 ^ 1) := by
    intro M hM'
    rw [hred] at hM'
    exact Except.ok.inj (hM'.built.symm.trans hC.built)
  obtain rfl : N = cubicObj (17 ^ 1) := hNeq N hCN
  rcases hres (fun M _ _ hM' => by
    obtain rfl : M = cubicObj (17 ^ 1) := hNeq M hM'
    exact C49_cubic_batch hla' flint le_rfl) with ⟨-, h⟩ | ⟨Φ, hΦ, h⟩
  · exact absurd h (cubic_division hCD (by norm_num))
  · rw [hred] at hΦ
    refine ⟨Φ, hΦ, fun Ψ P hAp hch hmon hdegP hW hfe => ?_⟩
    exact (h Ψ P hAp hch).2 rfl hmon hdegP hW 1 (Or.inl rfl) hfe (Or.inl rfl)

theorem quadratic_coeff (a b : ℤ) : (Polynomial.X ^ 2 - Polynomial.C a * Polynomial.X + Polynomial.C b : Polynomial ℤ).coeff 0 = b ∧
    (Polynomial.X ^ 2 - Polynomial.C a * Polynomial.X + Polynomial.C b : Polynomial ℤ).coeff 1 = -a ∧
    (Polynomial.X ^ 2 - Polynomial.C a * Polynomial.X + Polynomial.C b : Polynomial ℤ).coeff 2 = 1 := by
  simp only [Polynomial.coeff_add, Polynomial.coeff_sub, Polynomial.coeff_X_pow, Polynomial.coeff_C_mul, Polynomial.coeff_X,
    Polynomial.coeff_C]
  norm_num

theorem trace_coeff (Φ : Matrix (Fin 2) (Fin 2) (ZMod (17 ^ 1))) (c : ℤ) (h : (c : ZMod (17 ^ 1)) = Φ.trace) :
    (Φ.map (fun x => (x.val : ℤ))).charpoly.coeff 1 ≡ -c [ZMOD 17 ^ 1] := by
  rw [Matrix.charpoly_fin_two, (quadratic_coeff _ _).2.1]
  refine Int.ModEq.neg ((ZMod.intCast_eq_intCast_iff _ _ (17 ^ 1)).1 ?_)
  rw [h, Matrix.trace_fin_two, Matrix.trace_fin_two, Matrix.map_apply, Matrix.map_apply, Int.cast_add, Int.cast_natCast, Int.cast_natCast,
    ZMod.natCast_zmod_val, ZMod.natCast_zmod_val]

/-- The roots of the polynomials returned. -/
theorem weil_quadratic {a : ℤ} (ha : -8 ≤ a) (ha' : a ≤ 8) :
    (Polynomial.X ^ 2 - Polynomial.C a * Polynomial.X + Polynomial.C 17 : Polynomial ℤ).Monic ∧
    (Polynomial.X ^ 2 - Polynomial.C a * Polynomial.X + Polynomial.C 17 : Polynomial ℤ).natDegree = 2 ∧
    WeilRoots (Polynomial.X ^ 2 - Polynomial.C a * Polynomial.X + Polynomial.C 17) 17 1 := by
  have hdeg : (Polynomial.X ^ 2 - Polynomial.C a * Polynomial.X + Polynomial.C 17 : Polynomial ℤ).natDegree = 2 := by compute_degree!
  refine ⟨by monicity!, hdeg, fun z hz => ?_⟩
  have h : z ^ 2 - (a : ℂ) * z + 17 = 0 := by
    rw [map_add, map_sub, map_mul, map_pow, Polynomial.aeval_X, Polynomial.aeval_C, Polynomial.aeval_C] at hz
    simpa using hz
  have hre := congrArg Complex.re h
  have him := congrArg Complex.im h
  simp [pow_two] at hre him
  rw [Complex.sq_norm, Complex.normSq_apply, pow_one]
  have hA : ((a : ℝ)) ^ 2 < 68 := by
    have : a ^ 2 ≤ 64 := by nlinarith
    have : (a : ℝ) ^ 2 ≤ 64 := by exact_mod_cast this
    linarith
  have h2 : z.im * (2 * z.re - a) = 0 := by linarith
  rcases mul_eq_zero.1 h2 with h0 | h0
  · rw [h0] at hre
    nlinarith [sq_nonneg (2 * z.re - a)]
  · have : (a : ℝ) = 2 * z.re := by linarith
    rw [this] at hre
    push_cast
    nlinarith

/-- **C65 (`zeta_function`, the result for a curve).**  Under the conditions of `C65_default_cubic` the polynomial returned is
`T^2 - a T + 17` with the integer `a`, `-8 ≤ a ≤ 8`, that is the trace of the matrix `Φ` modulo 17; no assumption on the zeta function
of the curve is made. -/
theorem C65_default_cubic_trace (la : RankDet (ZMod 17)) (hla : RankDetOK la) (rnd : Rnd (ZMod 17)) (t : ℕ) (la' : LinAlg (ZMod 17))
    (hla' : LinAlgOK la') (flint pre : Bool) {order : ℕ → List ℕ} (ho : ∀ b, (order b).Perm (List.range b)) (abs : ℤ) (habs : abs ≤ 0)
    (increase better : Bool) :
    defaultArgs 17 2 3 = .ok ⟨1, [0, 1], [3, 1, 1]⟩ ∧
    ConstructedND (padicSolver 17 1 la' flint 1) 17 (cubicYZ (17 ^ 1)) 2 3 (cubicObj (17 ^ 1)) ∧
    ∃ Φ : Matrix (Fin 2) (Fin 2) (ZMod (17 ^ 1)),
      IsFrobenius (toPoly (2 + 1) (cubicYZ (17 ^ 1))) 3 17 [[0, 0, 0], [1, 2, 0]] [0, 1] (CMat.ofMatrix Φ).e ∧
      ∃ a : ℤ, -8 ≤ a ∧ a ≤ 8 ∧ (a : ZMod (17 ^ 1)) = Φ.trace ∧
        zetaMain 17 la rnd t (frobRoutine 17 la' flint pre order)
            [([0, 0, 3], 1), ([0, 1, 2], 1), ([0, 3, 0], 1), ([3, 0, 0], 1)] abs increase better =
          .ok (some ([17, -a, 1], CMat.ofMatrix (Φ.map (fun x => (x.val : ℤ))))) := by
  have hC := cubicYZ_constructed hla' flint (le_refl 1)
  obtain ⟨hred, hz', hnd, hsm, hideal⟩ := cubicYZ_model la hla la' hla' flint abs habs increase
  obtain ⟨f1, f2, f3⟩ := cubicInt_wf
  refine ⟨rfl, hC, ?_⟩
  rcases C65_zeta_partial (n := 2) (d := 3) la hla rnd t hla' flint pre ho _ f1 f2 f3 abs
    (termsFit_three (by norm_num) (by omega)) increase better _ rfl with ⟨-, h | h | h⟩ | ⟨-, -, h⟩ | h
  · exact absurd (by decide) h
  · cases hz'.symm.trans h
  · rw [hred] at h; exact absurd hsm h
  · rw [hred] at h; exact absurd hnd h
  obtain ⟨a, z, h0, nd, g, D, ha, hz, -, -, -, hM, hCD, hN, hres⟩ := h
  obtain rfl := Except.ok.inj (hz'.symm.trans hz)
  obtain ⟨rfl, rfl⟩ := hM.kept (by rw [hred]; exact hideal)
  obtain ⟨N, rfl, hCN⟩ := hN rfl
  have hNeq : ∀ M : ND (ZMod (17 ^ 1)), ConstructedND (padicSolver 17 1 la' flint 1) 17 (reduceCoeffs (17 ^ 1)
      [([0, 0, 3], 1), ([0, 1, 2], 1), ([0, 3, 0], 1), ([3, 0, 0], 1)]) 2 3 M → M = cubicObj (17 ^ 1) := by
    intro M hM'
    rw [hred] at hM'
    exact Except.ok.inj (hM'.built.symm.trans hC.built)
  obtain rfl : N = cubicObj (17 ^ 1) := hNeq N hCN
  rcases hres (fun M _ _ hM' => by
    obtain rfl : M = cubicObj (17 ^ 1) := hNeq M hM'
    exact C49_cubic_batch hla' flint le_rfl) with ⟨-, h⟩ | ⟨Φ, hΦ, h⟩
  · exact absurd h (cubic_division hCD (by norm_num))
  · rw [hred] at hΦ
    obtain rfl : a = ⟨1, [0, 1], [3, 1, 1]⟩ := (Except.ok.inj (show Except.ok _ = Except.ok a from ha)).symm
    have hy : ∃ c : ℤ, -8 ≤ c ∧ c ≤ 8 ∧ (c : ZMod (17 ^ 1)) = Φ.trace := by
      obtain ⟨y, hy⟩ : ∃ y : ℤ, (y : ZMod (17 ^ 1)) = Φ.trace := ⟨(Φ.trace).cast, ZMod.intCast_zmod_cast _⟩
      refine ⟨(y + 8) % 17 - 8, by omega, by omega, ?_⟩
      rw [← hy, ← sub_eq_zero, ← Int.cast_sub, ZMod.intCast_zmod_eq_zero_iff_dvd]
      push_cast
      omega
    obtain ⟨c, c1, c2, c3⟩ := hy
    obtain ⟨k1, k2, k3⟩ := weil_quadratic c1 c2
    refine ⟨Φ, hΦ, c, c1, c2, c3, ?_⟩
    obtain ⟨hc0, hc1, hc2⟩ := quadratic_coeff c 17
    have hrun := h.2 rfl (by decide) _ 1 k1 k2 k3 (Or.inl rfl) (fun i hi => ?_) (fun i i1 i2 => ?_) (Or.inl rfl)
    · rw [hrun]
      simp only [show (cubicObj (17 ^ 1)).basis.length = 2 from rfl, List.range_succ, List.range_zero, List.nil_append, List.cons_append,
        List.map_cons, List.map_nil, hc0, hc1, hc2]
      rfl
    · have hi : 2 * i ≤ 2 := hi
      obtain rfl | rfl : i = 0 ∨ i = 1 := by omega
      · show Polynomial.coeff _ 0 = 1 * (17 : ℤ) ^ halfWeight 2 1 0 * Polynomial.coeff _ 2
        rw [hc0, hc2]; rfl
      · show Polynomial.coeff _ 1 = 1 * (17 : ℤ) ^ halfWeight 2 1 1 * Polynomial.coeff _ 1
        rw [hc1, show halfWeight 2 1 1 = 0 from rfl]; ring
    · have i2 : i < 2 := i2
      obtain rfl : i = 1 := by omega
      rw [hc1]
      exact trace_coeff Φ c c3

/-- The routines and an order of the loop as required, for the default options. -/
example : ∃ (la : RankDet (ZMod 17)) (la' : LinAlg (ZMod 17)), RankDetOK la ∧ LinAlgOK la' ∧ ∃ (a : ℤ) (M : CMat ℤ), -8 ≤ a ∧ a ≤ 8 ∧
    zetaMain 17 la ⟨fun _ => 0, fun _ => 0⟩ 0 (frobRoutine 17 la' true false List.range)
      [([0, 0, 3], 1), ([0, 1, 2], 1), ([0, 3, 0], 1), ([3, 0, 0], 1)] 0 true true = .ok (some ([17, -a, 1], M)) := by
  obtain ⟨la, hla⟩ := exists_rankDet (ZMod 17)
  obtain ⟨la', hla'⟩ := exists_linAlg (ZMod 17)
  obtain ⟨Φ, -, a, h1, h2, -, h⟩ := (C65_default_cubic_trace la hla ⟨fun _ => 0, fun _ => 0⟩ 0 la' hla' true false
    (fun b => List.Perm.refl _) 0 le_rfl true true).2.2
  exact ⟨la, la', hla, hla', a, _, h1, h2, h⟩

end Verif
