import Verif.Props.SamePoly
import Verif.Props.ProgramThreads

/-!
Properties C68, C88 and C89: a run of `examples/frob.cc` that returns, for a plane cubic.
-/

namespace Verif

open Spec MvPolynomial

local instance frobCubicPrime : Fact (Nat.Prime 17) := ⟨by norm_num⟩

/-- The vector of coefficients of `x^3 + y^3 + z^3 + y z^2`. -/
def cubicVec : List ℤ := [1, 1, 0, 1, 0, 0, 0, 0, 0, 1]

theorem comps_cubic : comps 2 3 = [[0, 0, 3], [0, 1, 2], [0, 2, 1], [0, 3, 0], [1, 0, 2], [1, 1, 1], [1, 2, 0], [2, 0, 1], [2, 1, 0],
    [3, 0, 0]] := by simp [comps]

theorem cubicVec_poly : toPoly (2 + 1) ((comps 2 3).zip (cubicVec.map (fun c : ℤ => (c : ZMod 17)))) =
    toPoly (2 + 1) (cubicYZ 17) := by
  rw [comps_cubic]
  simp [toPoly, cubicVec, cubicYZ]

/-- **C68 (`frob.cc`, a curve).**  The program is given `p = 17`, one digit, the coefficients of `x^3 + y^3 + z^3 + y z^2`, the numbers of
terms `[0 1]` and the absolute precisions `[3 1 1]`.  For all random numbers, number of tries, linear algebra routines, number of
threads and order of the parallel loop it returns: the change of variables printed is the identity, the polynomial printed is the one
read, the matrix is the truncated Frobenius matrix on the basis `1`, `x y^2`, and the polynomial printed is `T^2 - a T + 17`, `a` the integer
between -8 and 8 that is the trace modulo 17.  The object is built from the ten terms that `change_of_variables` leaves, six of them zero. -/
theorem C68_cubic (la : RankDet (ZMod 17)) (hla : RankDetOK la) (rnd : Rnd (ZMod 17)) (t t' : ℕ) (la' : LinAlg (ZMod 17))
    (hla' : LinAlgOK la') (flint pre : Bool) {order : ℕ → List ℕ} (ho : ∀ b, (order b).Perm (List.range b))
    {cmp : ℕ → ℕ → Bool} (hcmp : CmpOK cmp) {factor : Polynomial ℤ → List (Polynomial ℤ × ℕ)} (hfac : FactorOK factor) (tries : ℤ) :
    ∃ (M : CMat (ZMod 17)) (Φ : Matrix (Fin 2) (Fin 2) (ZMod (17 ^ 1))) (a : ℤ),
      M.rows = 3 ∧ M.cols = 3 ∧ toMat M 3 3 = 1 ∧
      IsFrobenius (toPoly (2 + 1) (cubicYZ (17 ^ 1))) 3 17 [[0, 0, 0], [1, 2, 0]] [0, 1] (CMat.ofMatrix Φ).e ∧
      -8 ≤ a ∧ a ≤ 8 ∧ (a : ZMod (17 ^ 1)) = Φ.trace ∧
      frobProgram 17 la rnd t t' (frobRoutine 17 la' flint pre order) cmp factor tries (1 : ℕ) (2 : ℕ) (3 : ℕ) cubicVec [0, 1] [3, 1, 1] =
        .ok (some ⟨M, cubicVec.map (fun c : ℤ => (c : ZMod 17)), CMat.ofMatrix Φ, [17, -a, 1], 0⟩) := by
  obtain ⟨hred, hz', hnd, hsm, hideal⟩ := cubicYZ_model la hla la' hla' flint 0 le_rfl true
  have hC := cubicYZ_constructed hla' flint (le_refl 1)
  rcases C68_frob_partial (n := 2) (d := 3) la hla rnd t hla' flint pre ho hcmp hfac tries (le_refl 1) (by norm_num) (by norm_num)
    (by norm_num) (by norm_num) size_cubic (comps_isTable 2 3) cubicVec [0, 1] [3, 1, 1] (by rw [comps_cubic]; rfl) rfl
    (fun x hx => termsFit_three (by norm_num) ((by decide : ∀ x ∈ ([0, 1] : List ℤ), x ≤ 50) x hx))
    (toPoly (2 + 1) (cubicYZ 17)) cubicVec_poly.symm hsm with ⟨-, h⟩ | ⟨nd, A, Q, g, D, h1, -, h3, -, hCD, hCN, h⟩
  · exact absurd hnd h
  obtain ⟨rfl, rfl, rfl⟩ := h1.kept hnd
  have hdvd : 17 ∣ 17 ^ 1 := by norm_num
  have hpoly : toPoly (2 + 1) (cubicYZ (17 ^ 1)) = toPoly (2 + 1) g := by
    have e : reduce hdvd (toPoly (2 + 1) (cubicYZ (17 ^ 1))) = toPoly (2 + 1) (cubicYZ 17) := by
      rw [← hred, ← hred]
      show map _ _ = _
      rw [toPoly_reduce, toPoly_reduce, map_map]
      congr 2
      exact RingHom.ext_int _ _
    have hinj : Function.Injective (ZMod.castHom hdvd (ZMod 17)) := by
      intro a b hab
      rw [← ZMod.natCast_zmod_val a, ← ZMod.natCast_zmod_val b, map_natCast, map_natCast, ZMod.natCast_eq_natCast_iff] at hab
      rw [← ZMod.natCast_zmod_val a, ← ZMod.natCast_zmod_val b, ZMod.natCast_eq_natCast_iff]
      exact hab
    exact map_injective _ hinj (e.trans h3.symm)
  have key : ∀ E : ND (ZMod (17 ^ 1)), ConstructedND (padicSolver 17 1 la' flint 1) 17 g 2 3 E →
      E = { cubicObj (17 ^ 1) with f := g } := by
    intro E hE
    have := (C89_constructed (solve := padicSolver 17 1 la' flint 1) (q := 17) hE.wf (init_args_ND hE.built).1 hE.hom hpoly).2 _ hC
    exact Except.ok.inj (hE.built.symm.trans this.built)
  obtain ⟨E, hE1, hE2⟩ := hCN rfl
  obtain rfl := key E hE2
  obtain rfl := hE1
  rcases h (fun E' _ _ hE' => by
    rw [key E' hE']
    exact C89_flint hE'.wf (init_args_ND hE'.built).1 hE'.hom hpoly hC 17 (C49_cubic_batch hla' flint le_rfl)) with ⟨-, h⟩ | ⟨Φ, hΦ, -, h⟩
  · exact absurd h (cubic_division hCD (by norm_num))
  · obtain ⟨c, c1, c2, c3⟩ : ∃ c : ℤ, -8 ≤ c ∧ c ≤ 8 ∧ (c : ZMod (17 ^ 1)) = Φ.trace := by
      obtain ⟨y, hy⟩ : ∃ y : ℤ, (y : ZMod (17 ^ 1)) = Φ.trace := ⟨(Φ.trace).cast, ZMod.intCast_zmod_cast _⟩
      refine ⟨(y + 8) % 17 - 8, by omega, by omega, ?_⟩
      rw [← hy, ← sub_eq_zero, ← Int.cast_sub, ZMod.intCast_zmod_eq_zero_iff_dvd]
      push_cast
      omega
    obtain ⟨k1, k2, k3⟩ := weil_quadratic c1 c2
    obtain ⟨hc0, hc1, hc2⟩ := quadratic_coeff c 17
    have hen : EnoughPrec 2 17 1 (fun i => ([3, 1, 1] : List ℤ).getD i 0) := by
      obtain ⟨-, -, -, b, -, hb, -, -, hen⟩ := C12_default_args_partial 17 (by norm_num) 2 3 ⟨1, [0, 1], [3, 1, 1]⟩ rfl
      obtain rfl : b = 2 := by
        have hb : 3 = b + 1 := hb
        omega
      exact hen
    obtain ⟨M, T, m1, m2, m3, hrun⟩ := h rfl (by decide) hen (by decide) _ 1 k1 k2 k3 (Or.inl rfl)
      (fun i hi => by
        have hi : 2 * i ≤ 2 := hi
        obtain rfl | rfl : i = 0 ∨ i = 1 := by omega
        · show Polynomial.coeff _ 0 = 1 * (17 : ℤ) ^ halfWeight 2 1 0 * Polynomial.coeff _ 2
          rw [hc0, hc2]; rfl
        · show Polynomial.coeff _ 1 = 1 * (17 : ℤ) ^ halfWeight 2 1 1 * Polynomial.coeff _ 1
          rw [hc1, show halfWeight 2 1 1 = 0 from rfl]; ring)
      (fun i i1 i2 => by
        have i2 : i < 2 := i2
        obtain rfl : i = 1 := by omega
        rw [hc1]
        exact trace_coeff Φ c c3) (Or.inl rfl)
    rw [← hpoly] at hΦ
    refine ⟨M, Φ, c, m1, m2, m3, hΦ, c1, c2, c3, ?_⟩
    have hr := hrun (T + t') (by omega)
    have hlen : cubicVec.length = (comps 2 3).length := by rw [comps_cubic]; rfl
    have h23 : ¬ (((2 : ℕ) : ℤ) = 3 ∧ ((3 : ℕ) : ℤ) = 4) := by norm_num
    rw [frobProgram_eq la rnd t _ cmp factor tries _ 1 (by decide) (comps_isTable 2 3) cubicVec _ _ hlen] at hr ⊢
    simp only [if_neg h23] at hr ⊢
    rw [hr]
    have hv : (comps 2 3).map (fun u => coeff (expo (2 + 1) u) (toPoly (2 + 1) (cubicYZ 17))) =
        cubicVec.map (fun c : ℤ => (c : ZMod 17)) := by
      rw [show (comps 2 3).map (fun u => coeff (expo (2 + 1) u) (toPoly (2 + 1) (cubicYZ 17))) =
        (comps 2 3).map (fun u => MonMap.get (cubicYZ 17) u) from List.map_congr_left (fun u hu => by
          have hu := ((comps_isTable 2 3).2 u).1 hu
          exact coeff_toPoly (cubicYZ_wf 17).1 hu.1 hu.2.1), comps_cubic]
      decide +kernel
    have hw : (List.range (2 + 1)).map (Polynomial.X ^ 2 - Polynomial.C c * Polynomial.X + Polynomial.C 17 : Polynomial ℤ).coeff =
        [17, -c, 1] := by
      simp only [List.range_succ, List.range_zero, List.nil_append, List.cons_append, List.map_cons, List.map_nil, hc0, hc1, hc2]
    rw [hv]
    refine congrArg _ (congrArg _ ?_)
    rw [← hw]
    rfl

/-- The routines exist, and the run is the same with any number of threads (`C88_frob`). -/
example : ∃ (la : RankDet (ZMod 17)) (la' : LinAlg (ZMod 17)) (cmp : ℕ → ℕ → Bool) (factor : Polynomial ℤ → List (Polynomial ℤ × ℕ))
    (M : CMat (ZMod 17)) (Φ : CMat (ZMod (17 ^ 1))) (a : ℤ), RankDetOK la ∧ LinAlgOK la' ∧ CmpOK cmp ∧ FactorOK factor ∧
    -8 ≤ a ∧ a ≤ 8 ∧ ∀ (saveMemory : Bool) (threads : ℕ) (ws : (K : ℕ) → ℕ → Solver (ZMod (17 ^ K))),
      frobProgram 17 la ⟨fun _ => 0, fun _ => 0⟩ 0 0 (frobRoutineThreads 17 la' true saveMemory threads List.range
        (fun _ _ => List.range) ws) cmp factor 1700 (1 : ℕ) (2 : ℕ) (3 : ℕ) cubicVec [0, 1] [3, 1, 1] =
        .ok (some ⟨M, cubicVec.map (fun c : ℤ => (c : ZMod 17)), Φ, [17, -a, 1], 0⟩) := by
  obtain ⟨la, hla⟩ := exists_rankDet (ZMod 17)
  obtain ⟨la', hla'⟩ := exists_linAlg (ZMod 17)
  obtain ⟨cmp, hcmp⟩ := exists_cmp
  obtain ⟨factor, hfac⟩ := exists_factor
  obtain ⟨M, Φ, a, -, -, -, -, h1, h2, -, h⟩ := C68_cubic la hla ⟨fun _ => 0, fun _ => 0⟩ 0 0 la' hla' true false
    (order := List.range) (fun b => List.Perm.refl _) hcmp hfac 1700
  exact ⟨la, la', cmp, factor, M, _, a, hla, hla', hcmp, hfac, h1, h2, fun saveMemory threads ws =>
    C88_frob la hla _ 0 0 hla' true saveMemory threads (fun b => List.Perm.refl _) (fun _ _ k => List.Perm.refl _) ws cmp factor 1700
      le_rfl (by norm_num) (by norm_num) (by norm_num) (by norm_num) size_cubic cubicVec _ _ _ h⟩

end Verif
