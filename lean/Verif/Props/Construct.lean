import Verif.Lemmas.Construct
import Verif.Lemmas.LinAlgExists
import Verif.Props.Smooth
import Verif.Props.DeRham
import Verif.Props.Save

/-!
The constructors: which polynomials they accept (C59), that the overloads and the smoothness tests agree (C60), the
random constructors (C61).
-/

namespace Verif

open Spec MvPolynomial

variable {p N n d : ℕ} [Fact p.Prime]

/-! ### C59 -/

/-- **C59 (smooth).**  For every prime `p`, every precision, every homogeneous polynomial of degree `d >= 2` in `n + 1`
variables over `Z/p^N` and every linear algebra routine meeting its contract, `init` returns an object exactly when
`d > n`, `p` does not divide `d`, and the partial derivatives have no common zero modulo `p`; in every other case
an assertion fails.  So neither the comparison with the Hilbert function nor anything else in `init` fails for a
smooth hypersurface, and no other hypersurface gets through. -/
theorem C59_smooth (hN : 1 ≤ N) (hdvd : p ∣ p ^ N) {la : LinAlg (ZMod p)} (hla : LinAlgOK la) (flint : Bool)
    {precision : ℕ} (hprec : N ≤ precision) {f : MonMap (ZMod (p ^ N))} (hf : WFPoly (n + 1) f) (hne : f ≠ [])
    (hdeg : ∀ e ∈ f, deg e.1 = d) (hsize : ∀ l ≤ (n + 1) * d, (l + n).choose n < 2 ^ 63) (hd : 2 ≤ d) :
    ((∃ D, DR.init (padicSolver p N la flint precision) p f = .ok D) ↔
      n < d ∧ ¬ p ∣ d ∧ SmoothMod hdvd (toPoly (n + 1) f)) ∧
    (¬ (n < d ∧ ¬ p ∣ d ∧ SmoothMod hdvd (toPoly (n + 1) f)) →
      DR.init (padicSolver p N la flint precision) p f = .error .assertFail) := by
  rw [Nat.dvd_iff_mod_eq_zero]
  refine ⟨⟨?_, ?_⟩, init_refuses hN hdvd hla flint hprec hf hne hdeg hsize hd⟩
  · rintro ⟨D, hD⟩
    by_contra hc
    rw [init_refuses hN hdvd hla flint hprec hf hne hdeg hsize hd hc] at hD
    cases hD
  · rintro ⟨h1, h2, h3⟩
    obtain ⟨b, hb⟩ := init_succeeds hN hdvd hla flint hprec hf hne hdeg hsize hd h1 h2 h3
    exact ⟨_, hb⟩

/-- **C59 (non-degenerate).**  The same for `init_ND` and the polynomials `x_i ∂_i f`; in particular the assertion that
the basis has `d^n` elements never fails. -/
theorem C59_nondegenerate (hN : 1 ≤ N) (hdvd : p ∣ p ^ N) {la : LinAlg (ZMod p)} (hla : LinAlgOK la) (flint : Bool)
    {precision : ℕ} (hprec : N ≤ precision) {f : MonMap (ZMod (p ^ N))} (hf : WFPoly (n + 1) f) (hne : f ≠ [])
    (hdeg : ∀ e ∈ f, deg e.1 = d) (hsize : ∀ l ≤ (n + 1) * d, (l + n).choose n < 2 ^ 63) (hd : 2 ≤ d) :
    ((∃ D, ND.init (padicSolver p N la flint precision) p f = .ok D) ↔
      n < d ∧ ¬ p ∣ d ∧ NondegMod hdvd (toPoly (n + 1) f)) ∧
    (¬ (n < d ∧ ¬ p ∣ d ∧ NondegMod hdvd (toPoly (n + 1) f)) →
      ND.init (padicSolver p N la flint precision) p f = .error .assertFail) := by
  rw [Nat.dvd_iff_mod_eq_zero]
  refine ⟨⟨?_, ?_⟩, initND_refuses hN hdvd hla flint hprec hf hne hdeg hsize hd⟩
  · rintro ⟨D, hD⟩
    by_contra hc
    rw [initND_refuses hN hdvd hla flint hprec hf hne hdeg hsize hd hc] at hD
    cases hD
  · rintro ⟨h1, h2, h3⟩
    exact initND_succeeds hN hdvd hla flint hprec hf hne hdeg hsize hd h1 h2 h3

/-- **C59 (Hilbert function).**  For the object of a smooth hypersurface, and in every degree `l` for which there are
tables, the number of monomials `get_solve_J(l)` leaves over is the coefficient of `x^l` in
`(1 + x + ... + x^(d-2))^(n+1)`; for a non-degenerate one, `get_solve_ND(l)` leaves the coefficient of `x^l` in
`(1 + x + ... + x^(d-1))^(n+1)`. -/
theorem C59_hilbert (hN : 1 ≤ N) (hdvd : p ∣ p ^ N) {la : LinAlg (ZMod p)} (hla : LinAlgOK la) (flint : Bool)
    {precision : ℕ} (hprec : N ≤ precision) {f : MonMap (ZMod (p ^ N))} (hd : 2 ≤ d) {D : DR (ZMod (p ^ N))}
    (hC : Constructed (padicSolver p N la flint precision) p f n d D) {l : ℕ} (hl : l ≤ (n + 1) * d) :
    (∃ B U, solveJ (padicSolver p N la flint precision) D l = .ok (B, U) ∧
      (B.length : ℤ) = ((∑ i ∈ Finset.range (d - 1), (Polynomial.X : Polynomial ℤ) ^ i) ^ (n + 1)).coeff l) ∧
    (NondegMod hdvd (toPoly (n + 1) f) → ∃ B U, solveND (padicSolver p N la flint precision) D l = .ok (B, U) ∧
      (B.length : ℤ) = ((∑ i ∈ Finset.range d, (Polynomial.X : Polynomial ℤ) ^ i) ^ (n + 1)).coeff l) := by
  obtain ⟨rfl, rfl, hI⟩ := hC.init
  have hpoly : toPoly (D.n + 1) f = DRpoly D := by rw [DRpoly, hI.f_eq]
  rw [hpoly]
  have hlz : (l : ℤ) ≤ ((D.n : ℤ) + 1) * D.d := by exact_mod_cast hl
  obtain ⟨U0, hU0⟩ := hI.top
  have hs := (topJ_iff hN hdvd hla hI.ok hd hU0).1 rfl
  refine ⟨?_, fun hnd => ?_⟩
  · obtain ⟨-, B, U, -, -, e, -, -⟩ := solveJ_shape hC.solver hI.ok l (by omega) hlz
    exact ⟨B, U, e, by rw [← hilbertJ_eq, ← solveJ_count hN hdvd hla hI.ok hd hs hl e]⟩
  · obtain ⟨-, B, U, -, -, e, -, -⟩ := solveND_shape hC.solver hI.ok l (by omega) hlz
    exact ⟨B, U, e, by rw [← hilbertND_eq, ← solveND_count hN hdvd hla hI.ok hnd hl e]⟩

/-! Fermat's quartic surface. -/

section

def fermat4 (R : Type) [One R] : MonMap R := [([0, 0, 0, 4], 1), ([0, 0, 4, 0], 1), ([0, 4, 0, 0], 1), ([4, 0, 0, 0], 1)]

theorem fermat4_wf (R : Type) [One R] : WFPoly (3 + 1) (fermat4 R) ∧ fermat4 R ≠ [] ∧
    ∀ e ∈ fermat4 R, deg e.1 = (4 : ℕ) := by
  refine ⟨⟨?_, ?_⟩, by simp [fermat4], ?_⟩
  · intro e he
    simp only [fermat4, List.mem_cons, List.not_mem_nil, or_false] at he
    rcases he with rfl | rfl | rfl | rfl <;> exact ⟨rfl, by simp [NonNeg]⟩
  · simp only [fermat4, List.map_cons, List.map_nil]; unfold LexLt; decide
  · intro e he
    simp only [fermat4, List.mem_cons, List.not_mem_nil, or_false] at he
    rcases he with rfl | rfl | rfl | rfl <;> rfl

theorem fermat4_poly (R : Type) [CommRing R] :
    toPoly (3 + 1) (fermat4 R) = X 3 ^ 4 + (X 2 ^ 4 + (X 1 ^ 4 + X 0 ^ 4)) := by
  rw [fermat4, toPoly_cons, toPoly_cons, toPoly_cons, toPoly_cons, toPoly_nil, add_zero, X_pow_eq_monomial,
    X_pow_eq_monomial, X_pow_eq_monomial, X_pow_eq_monomial]
  congr 1
  · refine congrArg (fun a => monomial a (1 : R)) ?_
    ext i; fin_cases i <;> simp [expo_apply]
  congr 1
  · refine congrArg (fun a => monomial a (1 : R)) ?_
    ext i; fin_cases i <;> simp [expo_apply]
  congr 1
  · refine congrArg (fun a => monomial a (1 : R)) ?_
    ext i; fin_cases i <;> simp [expo_apply]
  · refine congrArg (fun a => monomial a (1 : R)) ?_
    ext i; fin_cases i <;> simp [expo_apply]

theorem fermat4_pderiv (R : Type) [CommRing R] (i : Fin (3 + 1)) : pderiv i (toPoly (3 + 1) (fermat4 R)) = 4 * X i ^ 3 := by
  rw [fermat4_poly]
  simp only [map_add, pderiv_pow]
  fin_cases i <;> simp [pderiv_X]

theorem fermat4_noZero (hp : p ≠ 2) : NoCommonZero.{0} (fun i => X i * pderiv i (toPoly (3 + 1) (fermat4 (ZMod p)))) := by
  intro K _ _ x hx
  funext i
  have h1 := hx i
  beta_reduce at h1
  rw [fermat4_pderiv, map_mul, aeval_X, map_mul, map_pow, aeval_X, map_ofNat] at h1
  have h4 : (4 : K) ≠ 0 := by
    haveI : CharP K p := (Algebra.charP_iff (ZMod p) K p).1 inferInstance
    intro h0
    have : ((4 : ℕ) : K) = 0 := by exact_mod_cast h0
    rw [CharP.cast_eq_zero_iff K p] at this
    have h2 : p ∣ 2 ^ 2 := by simpa using this
    exact hp ((Nat.prime_dvd_prime_iff_eq Fact.out Nat.prime_two).1 ((Fact.out : p.Prime).dvd_of_dvd_pow h2))
  simpa [h4] using h1

theorem fermat4_rep (hp : p ≠ 2) (hN : 1 ≤ N) : repMap (p ^ N) (fermat4 (ZMod p)) = fermat4 (ZMod (p ^ N)) := by
  haveI : Fact (1 < p) := ⟨(Fact.out : p.Prime).one_lt⟩
  simp only [repMap, fermat4, List.map_cons, List.map_nil, ZMod.val_one, Nat.cast_one]

theorem fermat4_nondeg (hp : p ≠ 2) (hN : 1 ≤ N) (hdvd : p ∣ p ^ N) : NondegMod hdvd (toPoly (3 + 1) (fermat4 (ZMod (p ^ N)))) := by
  rw [← fermat4_rep hp hN, nondeg_repMap]
  exact fermat4_noZero hp

theorem size_quartic : ∀ l ≤ (3 + 1) * 4, (l + 3).choose 3 < 2 ^ 63 := choose_small (by decide +kernel)

/-- The quartic is accepted by both constructors for every odd prime and every precision, and its basis is then of
the size given by the Hilbert function. -/
theorem fermat4_accepted (hp : p ≠ 2) (hN : 1 ≤ N) {la : LinAlg (ZMod p)} (hla : LinAlgOK la) (flint : Bool) :
    (∃ D, DR.init (padicSolver p N la flint N) p (fermat4 (ZMod (p ^ N))) = .ok D) ∧
    ∃ D, ND.init (padicSolver p N la flint N) p (fermat4 (ZMod (p ^ N))) = .ok D := by
  have hdvd : p ∣ p ^ N := dvd_pow_self p (by omega)
  obtain ⟨h1, h2, h3⟩ := fermat4_wf (ZMod (p ^ N))
  have h4 : ¬ p ∣ 4 := fun h0 => hp ((Nat.prime_dvd_prime_iff_eq Fact.out Nat.prime_two).1
    ((Fact.out : p.Prime).dvd_of_dvd_pow (show p ∣ 2 ^ 2 by simpa using h0)))
  have h5 := fermat4_nondeg hp hN hdvd
  exact ⟨(C59_smooth hN hdvd hla flint le_rfl h1 h2 h3 size_quartic (by norm_num)).1.2
      ⟨by norm_num, h4, smooth_of_nondeg h5⟩,
    (C59_nondegenerate hN hdvd hla flint le_rfl h1 h2 h3 size_quartic (by norm_num)).1.2 ⟨by norm_num, h4, h5⟩⟩

/-- Over `Z/7^3` the quartic meets the hypotheses of the three theorems. -/
example : ∃ (hp : Fact (Nat.Prime 7)) (la : LinAlg (ZMod 7)), LinAlgOK la ∧
    (∃ D, Constructed (padicSolver 7 3 la true 3) 7 (fermat4 (ZMod (7 ^ 3))) 3 4 D) ∧
    NondegMod (dvd_pow_self 7 (by norm_num : 3 ≠ 0)) (toPoly (3 + 1) (fermat4 (ZMod (7 ^ 3)))) := by
  have hp : Fact (Nat.Prime 7) := ⟨by norm_num⟩
  obtain ⟨la, hla⟩ := exists_linAlg (ZMod 7)
  obtain ⟨h1, h2, h3⟩ := fermat4_wf (ZMod (7 ^ 3))
  obtain ⟨⟨D, hD⟩, -⟩ := fermat4_accepted (p := 7) (N := 3) (by norm_num) (by norm_num) hla true
  exact ⟨hp, la, hla, ⟨D, padicSolver_ok hla true le_rfl, h1, h3, size_quartic, hD⟩,
    fermat4_nondeg (by norm_num) (by norm_num) _⟩

/-- A double point is refused: with `f = x^2` in two variables the assertion on the smoothness fails. -/
example : ∃ (hp : Fact (Nat.Prime 5)) (la : LinAlg (ZMod 5)), LinAlgOK la ∧
    DR.init (padicSolver 5 2 la true 2) 5 ([([2, 0], 1)] : MonMap (ZMod (5 ^ 2))) = .error .assertFail := by
  have hp : Fact (Nat.Prime 5) := ⟨by norm_num⟩
  obtain ⟨la, hla⟩ := exists_linAlg (ZMod 5)
  refine ⟨hp, la, hla, ?_⟩
  have hwf : WFPoly (1 + 1) ([([2, 0], 1)] : MonMap (ZMod (5 ^ 2))) := by unfold WFPoly NonNeg LexLt; decide
  refine (C59_smooth (N := 2) (n := 1) (d := 2) (by norm_num) (dvd_pow_self 5 (by norm_num)) hla true le_rfl hwf (by simp)
    (by decide) (choose_small (by decide)) (by norm_num)).2 ?_
  rintro ⟨-, -, h⟩
  have e : ([([2, 0], 1)] : MonMap (ZMod (5 ^ 2))) = repMap (5 ^ 2) exSingular := by decide +kernel
  rw [e, smooth_repMap, exSingular_poly] at h
  have := h (ZMod 5) (fun i => if i = 0 then 0 else 1) (by
    intro i
    fin_cases i <;> simp [pderiv_X])
  have h1 := congrFun this 1
  simp at h1

end

/-! ### C60 -/

section

variable {la : LinAlg (ZMod p)} {flint : Bool} {precision : ℕ}

/-- **C60 (vectors).**  The constructors taking a vector of coefficients build the object of the polynomial whose
coefficient at the `i`-th monomial of degree `d`, in the order of `tuple_list_generator`, is the `i`-th entry; a vector of
another length fails the assertion. -/
theorem C60_vector {q : ℕ} (solve : Solver (ZMod q)) (p' : ℕ) (h : (d + n).choose n < 2 ^ 63) (v : List (ZMod q)) :
    ∃ L, tupleListGenerator d (n + 1) = .ok L ∧
      (v.length = L.length → ∃ f, WFPoly (n + 1) f ∧ (∀ e ∈ f, deg e.1 = d) ∧
        (∀ i (hi : i < v.length) , coeff (expo (n + 1) (L.getD i [])) (toPoly (n + 1) f) = v[i]) ∧
        DR.ofVec solve p' n d v = DR.init solve p' f ∧ ND.ofVec solve p' n d v = ND.init solve p' f) ∧
      (v.length ≠ L.length → DR.ofVec solve p' n d v = .error .assertFail ∧
        ND.ofVec solve p' n d v = .error .assertFail) := by
  have hL := comps_isTable n d
  refine ⟨comps n d, tupleListGenerator_eq d n h, fun hv => ?_, fun hv => ?_⟩
  · obtain ⟨h1, h2⟩ := table_wf hL v hv.symm
    refine ⟨(comps n d).zip v, h1, h2, ?_, ?_, ?_⟩
    · intro i hi
      have hi' : i < (comps n d).length := by omega
      have ht := hL.tuple hi'
      rw [coeff_toPoly h1 ht.1 ht.2.1, MonMap.get, find?_of_mem_nodup (e := ((comps n d).getD i [], v[i]))]
      · rfl
      · rw [List.map_fst_zip (by omega)]; exact LexLt_pairwise_nodup hL.1
      · rw [getD_getElem _ _ _ hi', List.mem_iff_getElem]
        exact ⟨i, by rw [List.length_zip]; omega, by rw [List.getElem_zip]⟩
    · rw [DR.ofVec, vecMap_ok h, if_pos (by rw [hv, comps_length]), Res.bind_ok]
    · rw [ND.ofVec, vecMap_ok h, if_pos (by rw [hv, comps_length]), Res.bind_ok]
  · rw [comps_length] at hv
    constructor
    · rw [DR.ofVec, vecMap_ok h, if_neg hv]; rfl
    · rw [ND.ofVec, vecMap_ok h, if_neg hv]; rfl

/-- **C60 (coefficients in `zz_p`).**  The constructors taking a polynomial, or a vector of coefficients, over `F_p` build
the object of the lift with coefficients `0 .. p-1`, whose reduction is the polynomial given. -/
theorem C60_lift {q : ℕ} (hdvd : p ∣ q) (solve : Solver (ZMod q)) (fbar : MonMap (ZMod p)) (hf : WFPoly (n + 1) fbar) :
    ∃ f, WFPoly (n + 1) f ∧ reduce hdvd (toPoly (n + 1) f) = toPoly (n + 1) fbar ∧
      (∀ e ∈ f, ∃ c : ℕ, c < p ∧ e.2 = (c : ZMod q)) ∧
      DR.ofBar solve fbar = DR.init solve p f ∧ ND.ofBar solve fbar = ND.init solve p f ∧
      ∀ L v, (d + n).choose n < 2 ^ 63 → tupleListGenerator d (n + 1) = .ok L → fbar = L.zip v → v.length = L.length →
        DR.ofBarVec solve n d v = DR.init solve p f ∧ ND.ofBarVec solve n d v = ND.init solve p f := by
  refine ⟨repMap q fbar, repMap_wf hf, reduce_repMap hdvd fbar, ?_, ?_, ?_, ?_⟩
  · intro e he
    obtain ⟨x, -, rfl⟩ := List.mem_map.1 he
    exact ⟨x.2.val, ZMod.val_lt _, rfl⟩
  · rw [DR.ofBar, naiveLift_eq hf]
  · rw [ND.ofBar, naiveLift_eq hf]
  · intro L v hs hL hz hlen
    rw [tupleListGenerator_eq d n hs] at hL
    cases hL
    have hv : (v.map (fun c => ((c.val : ℕ) : ZMod q))).length = (d + n).choose n := by
      rw [List.length_map, hlen, comps_length]
    rw [hz, repMap_zip]
    constructor
    · rw [DR.ofBarVec, vecMap_ok hs, if_pos hv, Res.bind_ok]
    · rw [ND.ofBarVec, vecMap_ok hs, if_pos hv, Res.bind_ok]

/-- **C60 (the tests decide smoothness).**  `isSmooth` and `isND` return true exactly when the partial derivatives,
respectively the polynomials `x_i ∂_i f`, have no common zero but the origin over any extension of `F_p`. -/
theorem C60_tests {q : ℕ} [NeZero q] (hpq : p ∣ q) (la' : RankDet (ZMod p)) (hla' : RankDetOK la') (f : MonMap (ZMod p))
    (hf : WFPoly (n + 1) f) (hne : f ≠ []) (hdeg : ∀ e ∈ f, deg e.1 = d) (hd : 2 ≤ d)
    (hsize : ∀ l ≤ (n + 1) * d, (l + n).choose n < 2 ^ 63) :
    (∃ b, isSmooth la' q f = .ok b ∧ (b = true ↔ NoCommonZero.{0} (fun i => pderiv i (toPoly (n + 1) f)))) ∧
    ∃ b, isND la' q f = .ok b ∧ (b = true ↔ NoCommonZero.{0} (fun i => X i * pderiv i (toPoly (n + 1) f))) := by
  obtain ⟨b, e, hb⟩ := isSmooth_ok hpq hla' hf hne hdeg hd hsize
  obtain ⟨c, e', hc⟩ := isND_ok hpq hla' hf hne hdeg (by omega) hsize
  have hP := toPoly_isHomogeneous f hf.1 hdeg
  refine ⟨⟨b, e, hb.trans (noCommonZero_iff (fun i => hP.pderiv) (by omega) ?_)⟩,
    ⟨c, e', hc.trans (noCommonZero_iff (e := d) (fun i => ?_) (by omega) (by omega))⟩⟩
  · rw [show d - 1 - 1 = d - 2 by omega]; omega
  · have := (isHomogeneous_X (ZMod p) i).mul (hP.pderiv (i := i))
    rwa [show 1 + (d - 1) = d by omega] at this

/-- **C60 (the tests and the constructors agree).**  When `d > n` and `p` does not divide `d`, the constructor of
`de_Rham_local` accepts a polynomial over `F_p`, at whatever precision, exactly when `isSmooth` returns true, and the one
of `de_Rham_non_degenerate_local` exactly when `isND` does. -/
theorem C60_tests_constructors (hN : 1 ≤ N) (hla : LinAlgOK la) (hprec : N ≤ precision) {q : ℕ} [NeZero q] (hpq : p ∣ q)
    (la' : RankDet (ZMod p)) (hla' : RankDetOK la') (f : MonMap (ZMod p)) (hf : WFPoly (n + 1) f) (hne : f ≠ [])
    (hdeg : ∀ e ∈ f, deg e.1 = d) (hd : 2 ≤ d) (hnd : n < d) (hpd : ¬ p ∣ d)
    (hsize : ∀ l ≤ (n + 1) * d, (l + n).choose n < 2 ^ 63) :
    ((∃ D, DR.ofBar (padicSolver p N la flint precision) f = .ok D) ↔ isSmooth la' q f = .ok true) ∧
    ((∃ D, ND.ofBar (padicSolver p N la flint precision) f = .ok D) ↔ isND la' q f = .ok true) := by
  have hdvd : p ∣ p ^ N := dvd_pow_self p (by omega)
  obtain ⟨⟨b, e, hb⟩, c, e', hc⟩ := C60_tests hpq la' hla' f hf hne hdeg hd hsize
  have h1 := (C59_smooth hN hdvd hla flint hprec (repMap_wf (q := p ^ N) hf) (repMap_ne hne) (repMap_deg hdeg) hsize hd).1
  have h2 := (C59_nondegenerate hN hdvd hla flint hprec (repMap_wf (q := p ^ N) hf) (repMap_ne hne) (repMap_deg hdeg)
    hsize hd).1
  rw [smooth_repMap] at h1
  rw [nondeg_repMap] at h2
  rw [DR.ofBar, ND.ofBar, naiveLift_eq hf, h1, h2, e, e']
  constructor
  · constructor
    · rintro ⟨-, -, h⟩; rw [hb.2 h]
    · intro h; exact ⟨hnd, hpd, hb.1 (Except.ok.inj h)⟩
  · constructor
    · rintro ⟨-, -, h⟩; rw [hc.2 h]
    · intro h; exact ⟨hnd, hpd, hc.1 (Except.ok.inj h)⟩

/-- **C60 (after a change of variables).**  When `find_change_of_variables` returns a matrix other than zero, the
constructor of `de_Rham_non_degenerate_local` accepts the polynomial after the change of variables. -/
theorem C60_change_of_variables (hN : 1 ≤ N) (hla : LinAlgOK la) (hprec : N ≤ precision) {q : ℕ} [NeZero q] (hpq : p ∣ q)
    (la' : RankDet (ZMod p)) (hla' : RankDetOK la') (f : MonMap (ZMod p)) (hf : WFPoly (n + 1) f) (hne : f ≠ [])
    (hdeg : ∀ e ∈ f, deg e.1 = d) (hd : 2 ≤ d) (hnd : n < d) (hpd : ¬ p ∣ d)
    (hsize : ∀ l ≤ (n + 1) * d, (l + n).choose n < 2 ^ 63) (rnd : Rnd (ZMod p)) (t : ℕ) (K : ℤ) {M : CMat (ZMod p)}
    {tries : ℕ} (h : findChangeOfVariables la' q rnd t f K = .ok (some (M, tries)))
    (hM : toMat M (n + 1) (n + 1) ≠ 0) :
    ∃ g D, changeOfVariables f M = .ok g ∧ ND.ofBar (padicSolver p N la flint precision) g = .ok D := by
  rcases C38_find_change_of_variables.{0} hpq la' hla' f hf hne hdeg (by omega) hsize rnd t K with h0 | ⟨M', tr, e, -, hr, hc, h3⟩
  · rw [h] at h0; cases h0
  · rw [h] at e
    cases e
    obtain ⟨g, eg, hg, hpoly⟩ := changeOfVariables_ok (by omega) f hf M hr hc
    obtain ⟨hgd, hgne⟩ := changeOfVariables_KD (by omega) hf hne hdeg hr eg
    have hz : NoCommonZero.{0} (fun i => X i * pderiv i (toPoly (n + 1) g)) := by
      rw [hpoly]
      rcases h3 with ⟨h4, -, h5⟩ | ⟨-, -, h5⟩ | ⟨-, -, -, -, h5⟩
      · have e1 : linSubst (toMat M (n + 1) (n + 1)) (toPoly (n + 1) f) = toPoly (n + 1) f := by
          rw [h5]
          have : (fun i : Fin (n + 1) => ∑ j, C ((1 : Matrix (Fin (n + 1)) (Fin (n + 1)) (ZMod p)) i j) * X j)
              = (X : Fin (n + 1) → MvPolynomial (Fin (n + 1)) (ZMod p)) := by
            funext i
            rw [Finset.sum_eq_single i]
            · rw [Matrix.one_apply_eq, C_1, one_mul]
            · intro j _ hj; rw [Matrix.one_apply_ne (Ne.symm hj), C_0, zero_mul]
            · intro hi; exact absurd (Finset.mem_univ i) hi
          show aeval (fun i : Fin (n + 1) => ∑ j, C ((1 : Matrix (Fin (n + 1)) (Fin (n + 1)) (ZMod p)) i j) * X j) _ = _
          rw [this, aeval_X_left]; rfl
        have e2 : linSubst (fun i j : Fin (n + 1) => M.e i j) (toPoly (n + 1) f) = toPoly (n + 1) f := e1
        rw [e2]
        exact noCommonZero_of_ideal (by omega) h4
      · exact absurd h5 hM
      · exact h5
    obtain ⟨D, hD⟩ := (C60_tests_constructors (flint := flint) hN hla hprec hpq la' hla' g hg hgne hgd hd hnd hpd hsize).2.2 (by
      obtain ⟨-, b, e, hb⟩ := C60_tests hpq la' hla' g hg hgne hgd hd hsize
      rw [e, hb.2 hz])
    exact ⟨g, D, eg, hD⟩

/-- Fermat's quartic over `F_7`: both tests return true and both constructors accept it. -/
example : ∃ (hp : Fact (Nat.Prime 7)) (la : LinAlg (ZMod 7)) (la' : RankDet (ZMod 7)), LinAlgOK la ∧ RankDetOK la' ∧
    isSmooth la' 7 (fermat4 (ZMod 7)) = .ok true ∧ isND la' 7 (fermat4 (ZMod 7)) = .ok true ∧
    (∃ D, ND.ofBar (padicSolver 7 3 la true 3) (fermat4 (ZMod 7)) = .ok D) ∧
    ∃ M, findChangeOfVariables la' 7 ⟨fun _ => 0, fun _ => 0⟩ 1 (fermat4 (ZMod 7)) 5 = .ok (some (M, 0)) ∧
      toMat M (3 + 1) (3 + 1) ≠ 0 := by
  have hp : Fact (Nat.Prime 7) := ⟨by norm_num⟩
  obtain ⟨la, hla⟩ := exists_linAlg (ZMod 7)
  obtain ⟨la', hla'⟩ := exists_rankDet (ZMod 7)
  obtain ⟨h1, h2, h3⟩ := fermat4_wf (ZMod 7)
  have hz := fermat4_noZero (p := 7) (by norm_num)
  obtain ⟨⟨b, e, hb⟩, c, e', hc⟩ := C60_tests (q := 7) dvd_rfl la' hla' _ h1 h2 h3 (by norm_num) size_quartic
  have e1 : isSmooth la' 7 (fermat4 (ZMod 7)) = .ok true := by
    rw [e, hb.2 (fun K _ _ x hx => hz K x (fun i => by
      have := hx i
      beta_reduce at this ⊢
      rw [map_mul, this, mul_zero]))]
  have e2 : isND la' 7 (fermat4 (ZMod 7)) = .ok true := by rw [e', hc.2 hz]
  refine ⟨hp, la, la', hla, hla', e1, e2, ?_, ?_⟩
  · exact (C60_tests_constructors (N := 3) (by norm_num) hla le_rfl dvd_rfl la' hla' _ h1 h2 h3 (by norm_num) (by norm_num)
      (by norm_num) size_quartic).2.2 e2
  · refine ⟨CMat.mk' 4 4 (fun i j => if i = j then 1 else 0), ?_, ?_⟩
    · unfold fermat4 at e2 ⊢
      simp only [findChangeOfVariables]
      rw [e2, Res.bind_ok]
      rfl
    · intro h0
      have := congrFun (congrFun h0 0) 0
      simp [toMat, CMat.mk'] at this

/-- A vector of the right length, and one which is too short. -/
example : (vecMap 1 2 [1, 0, 2] : Res (MonMap (ZMod 25))) = .ok [([0, 2], 1), ([1, 1], 0), ([2, 0], 2)] ∧
    (vecMap 1 2 [1, 0] : Res (MonMap (ZMod 25))) = .error .assertFail ∧
    naiveLift 25 ([([0, 2], 4), ([2, 0], 3)] : MonMap (ZMod 5)) = [([0, 2], 4), ([2, 0], 3)] := by
  refine ⟨?_, ?_, ?_⟩ <;> decide +kernel

end

/-! ### C61 -/

section

variable {la : LinAlg (ZMod p)} {flint : Bool} {precision precision1 : ℕ}

/-- **C61 (random smooth).**  Whatever the numbers drawn, the constructor with random coefficients returns the object of
the first of the polynomials drawn which is smooth; the assertions of `init` hold for it.  As long as none is smooth
the loop goes on. -/
theorem C61_random (hN : 1 ≤ N) (hla : LinAlgOK la) (hprec : N ≤ precision)
    (hsize : ∀ l ≤ (n + 1) * d, (l + n).choose n < 2 ^ 63) (hd : 2 ≤ d) (hnd : n < d) (hpd : ¬ p ∣ d) (rnd : ℕ → ZMod p)
    (t : ℕ) :
    ∃ (L : List IVec) (P : ℕ → MonMap (ZMod p)), tupleListGenerator d (n + 1) = .ok L ∧
      (∀ k, P k = L.zip ((List.range L.length).map (fun i => rnd (k * L.length + i)))) ∧
      (∀ j < t, (∀ i < j, ¬ NoCommonZero.{0} (fun x => pderiv x (toPoly (n + 1) (P i)))) →
        NoCommonZero.{0} (fun x => pderiv x (toPoly (n + 1) (P j))) →
        ∃ D, DR.random (padicSolver p N la flint precision) (padicSolver p N la flint precision1) rnd t n d = .ok (some D) ∧
          DR.ofBar (padicSolver p N la flint precision) (P j) = .ok D) ∧
      ((∀ i < t, ¬ NoCommonZero.{0} (fun x => pderiv x (toPoly (n + 1) (P i)))) →
        DR.random (padicSolver p N la flint precision) (padicSolver p N la flint precision1) rnd t n d = .ok none) := by
  have hs : (d + n).choose n < 2 ^ 63 := hsize d (Nat.le_mul_of_pos_left _ (by omega))
  have hL := comps_isTable n d
  have hdvd : p ∣ p ^ N := dvd_pow_self p (by omega)
  obtain ⟨h1, h2⟩ := randomJ_ok hN hla flint (precision := precision1) hsize hd hnd (padicSolver p N la flint precision) rnd t
  refine ⟨comps n d, drawn rnd (comps n d), tupleListGenerator_eq d n hs, fun _ => rfl, ?_, h2⟩
  intro j hj hi hz
  have hwf := table_wf (n := n) (d := d) hL ((List.range (comps n d).length).map
    (fun i => rnd (j * (comps n d).length + i))) (by simp)
  have hne : drawn rnd (comps n d) j ≠ [] := by
    intro h0
    have h1 := congrArg List.length h0
    have h2 := table_nonempty hL
    simp only [drawn, List.length_zip, List.length_map, List.length_range, min_self, List.length_nil] at h1
    omega
  obtain ⟨D, hD⟩ := (C59_smooth hN hdvd hla flint hprec (repMap_wf (q := p ^ N) hwf.1) (repMap_ne hne)
    (repMap_deg hwf.2) hsize hd).1.2 ⟨hnd, hpd, (smooth_repMap hdvd _).2 hz⟩
  refine ⟨D, ?_, ?_⟩
  · rw [h1 j hj hi hz]
    have hD' : DR.init (padicSolver p N la flint precision) p (repMap (p ^ N) (drawn rnd (comps n d) j)) = .ok D := hD
    rw [hD']; rfl
  · rw [DR.ofBar, naiveLift_eq (f := drawn rnd (comps n d) j) hwf.1]; exact hD

/-- **C61 (random non-degenerate).**  The same for `de_Rham_non_degenerate_local`. -/
theorem C61_random_nd (hN : 1 ≤ N) (hla : LinAlgOK la) (hprec : N ≤ precision)
    (hsize : ∀ l ≤ (n + 1) * d, (l + n).choose n < 2 ^ 63) (hd : 2 ≤ d) (hnd : n < d) (hpd : ¬ p ∣ d) (rnd : ℕ → ZMod p)
    (t : ℕ) :
    ∃ (L : List IVec) (P : ℕ → MonMap (ZMod p)), tupleListGenerator d (n + 1) = .ok L ∧
      (∀ k, P k = L.zip ((List.range L.length).map (fun i => rnd (k * L.length + i)))) ∧
      (∀ j < t, (∀ i < j, ¬ NoCommonZero.{0} (fun x => X x * pderiv x (toPoly (n + 1) (P i)))) →
        NoCommonZero.{0} (fun x => X x * pderiv x (toPoly (n + 1) (P j))) →
        ∃ D, ND.random (padicSolver p N la flint precision) (padicSolver p N la flint precision1) rnd t n d = .ok (some D) ∧
          ND.ofBar (padicSolver p N la flint precision) (P j) = .ok D) ∧
      ((∀ i < t, ¬ NoCommonZero.{0} (fun x => X x * pderiv x (toPoly (n + 1) (P i)))) →
        ND.random (padicSolver p N la flint precision) (padicSolver p N la flint precision1) rnd t n d = .ok none) := by
  have hs : (d + n).choose n < 2 ^ 63 := hsize d (Nat.le_mul_of_pos_left _ (by omega))
  have hL := comps_isTable n d
  have hdvd : p ∣ p ^ N := dvd_pow_self p (by omega)
  obtain ⟨h1, h2⟩ := randomND_ok hN hla flint (precision := precision1) hsize hd hnd (padicSolver p N la flint precision) rnd t
  refine ⟨comps n d, drawn rnd (comps n d), tupleListGenerator_eq d n hs, fun _ => rfl, ?_, h2⟩
  intro j hj hi hz
  have hwf := table_wf (n := n) (d := d) hL ((List.range (comps n d).length).map
    (fun i => rnd (j * (comps n d).length + i))) (by simp)
  have hne : drawn rnd (comps n d) j ≠ [] := by
    intro h0
    have h1 := congrArg List.length h0
    have h2 := table_nonempty hL
    simp only [drawn, List.length_zip, List.length_map, List.length_range, min_self, List.length_nil] at h1
    omega
  obtain ⟨D, hD⟩ := (C59_nondegenerate hN hdvd hla flint hprec (repMap_wf (q := p ^ N) hwf.1) (repMap_ne hne)
    (repMap_deg hwf.2) hsize hd).1.2 ⟨hnd, hpd, (nondeg_repMap hdvd _).2 hz⟩
  refine ⟨D, ?_, ?_⟩
  · rw [h1 j hj hi hz]
    have hD' : ND.init (padicSolver p N la flint precision) p (repMap (p ^ N) (drawn rnd (comps n d) j)) = .ok D := hD
    rw [hD']; rfl
  · rw [ND.ofBar, naiveLift_eq (f := drawn rnd (comps n d) j) hwf.1]; exact hD

/-- **C61 (the loop that never ends).**  When `p` divides `d` no polynomial of degree `d` is non-degenerate: the random
constructor of `de_Rham_non_degenerate_local` draws for ever, whatever the numbers drawn, where all the others
stop at the assertion `d % p != 0`. -/
theorem C61_never_ends_wrong (hN : 1 ≤ N) (hla : LinAlgOK la)
    (hsize : ∀ l ≤ (n + 1) * d, (l + n).choose n < 2 ^ 63) (hd : 2 ≤ d) (hnd : n < d) (hpd : p ∣ d) (rnd : ℕ → ZMod p) :
    (∀ t, ND.random (padicSolver p N la flint precision) (padicSolver p N la flint precision1) rnd t n d = .ok none) ∧
    ∀ f : MonMap (ZMod p), WFPoly (n + 1) f → f ≠ [] → (∀ e ∈ f, deg e.1 = d) → N ≤ precision →
      ND.ofBar (padicSolver p N la flint precision) f = .error .assertFail := by
  have hL := comps_isTable n d
  have hdvd : p ∣ p ^ N := dvd_pow_self p (by omega)
  have h0 : ((d : ℕ) : ZMod p) = 0 := (ZMod.natCast_eq_zero_iff d p).2 hpd
  refine ⟨fun t => ?_, fun f hf hne hdeg hprec => ?_⟩
  · obtain ⟨-, h2⟩ := randomND_ok hN hla flint (precision := precision1) hsize hd hnd (padicSolver p N la flint precision) rnd t
    refine h2 (fun i _ => ?_)
    have hwf := table_wf (n := n) (d := d) hL ((List.range (comps n d).length).map
      (fun j => rnd (i * (comps n d).length + j))) (by simp)
    exact not_nondeg (by omega) h0 (toPoly_isHomogeneous _ hwf.1.1 hwf.2)
  · rw [ND.ofBar, naiveLift_eq hf]
    exact (C59_nondegenerate hN hdvd hla flint hprec (repMap_wf (q := p ^ N) hf) (repMap_ne hne)
      (repMap_deg hdeg) hsize hd).2 (fun hc => hc.2.1 hpd)

/-- Points on the line over `F_5`, `d = 2`: the sequence 0, 0, 0, 1, 0, 1, ... draws first 0, which is not smooth, then
`x^2 + y^2`, which is; and over `F_2` the degree is divisible by `p`. -/
example : (∃ (hp : Fact (Nat.Prime 5)) (la : LinAlg (ZMod 5)), LinAlgOK la ∧
    ∃ D, DR.random (p := 5) (padicSolver 5 2 la true 2) (padicSolver 5 2 la true 1)
      (fun i => if i = 3 ∨ i = 5 then 1 else 0) 2 1 2
      = .ok (some D)) ∧
    ∃ (hp : Fact (Nat.Prime 2)) (la : LinAlg (ZMod 2)), LinAlgOK la ∧ (1 : ℕ) < 2 ∧ 2 ∣ 2 := by
  refine ⟨?_, ?_⟩
  · have hp : Fact (Nat.Prime 5) := ⟨by norm_num⟩
    obtain ⟨la, hla⟩ := exists_linAlg (ZMod 5)
    refine ⟨hp, la, hla, ?_⟩
    obtain ⟨L, P, hL, hP, h1, -⟩ := C61_random (N := 2) (n := 1) (d := 2) (flint := true) (precision := 2) (precision1 := 1)
      (by norm_num) hla le_rfl (choose_small (by decide)) (by norm_num) (by norm_num) (by norm_num)
      (fun i => if i = 3 ∨ i = 5 then (1 : ZMod 5) else 0) 2
    have hL' : L = [[0, 2], [1, 1], [2, 0]] := by
      have : tupleListGenerator ((2 : ℕ) : ℤ) (1 + 1) = .ok [[0, 2], [1, 1], [2, 0]] := by decide +kernel
      rw [this] at hL
      exact (Except.ok.inj hL).symm
    subst hL'
    have e0 : P 0 = [([0, 2], 0), ([1, 1], 0), ([2, 0], 0)] := by rw [hP]; simp [List.range_succ]
    have e1 : P 1 = [([0, 2], 1), ([1, 1], 0), ([2, 0], 1)] := by rw [hP]; simp [List.range_succ]
    have p0 : toPoly (1 + 1) (P 0) = 0 := by rw [e0]; simp [toPoly]
    have p1 : toPoly (1 + 1) (P 1) = X 0 ^ 2 + X 1 ^ 2 := by
      rw [← exSmooth_poly, e1, exSmooth]; simp [toPoly]
    obtain ⟨D, hD, -⟩ := h1 1 (by norm_num) (by
      intro i hi
      obtain rfl : i = 0 := by omega
      rw [p0]
      intro h
      have := congrFun (h (ZMod 5) (fun _ => 1) (by intro i; simp)) 0
      simp at this) (by
      rw [p1, ← exSmooth_poly]
      obtain ⟨la', hla'⟩ := exists_rankDet (ZMod 5)
      exact C37_isND_smooth (q := 25) (d := 2) (by norm_num) la' hla' exSmooth exSmooth_wf.1 exSmooth_wf.2.1
        exSmooth_wf.2.2 (by norm_num) (small_choose rfl rfl) (exSmooth_nd la' hla'))
    exact ⟨D, hD⟩
  · have hp : Fact (Nat.Prime 2) := ⟨Nat.prime_two⟩
    obtain ⟨la, hla⟩ := exists_linAlg (ZMod 2)
    exact ⟨hp, la, hla, by norm_num, dvd_refl 2⟩

end

end Verif
