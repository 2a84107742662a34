import Verif.Props.Programs

/-!
Property C69: the surfaces `x^4 + y^4 + z^4 + w^4 + lambda x y z w` of `examples/K3_dwork.cc` and `examples/K3_dwork2.cc`.
-/

namespace Verif

open Spec MvPolynomial

/-- The map built by the two programs. -/
theorem dworkMap_eq {R : Type} [One R] (c : R) : dworkMap c =
    [([0, 0, 0, 4], 1), ([0, 0, 4, 0], 1), ([0, 4, 0, 0], 1), ([1, 1, 1, 1], c), ([4, 0, 0, 0], 1)] := rfl

theorem dworkMap_wf {R : Type} [One R] (c : R) : WFPoly (3 + 1) (dworkMap c) ∧ dworkMap c ≠ [] ∧
    ∀ e ∈ dworkMap c, deg e.1 = (4 : ℕ) := by
  rw [dworkMap_eq]
  refine ⟨⟨?_, ?_⟩, by simp, ?_⟩
  · intro e he
    simp only [List.mem_cons, List.not_mem_nil, or_false] at he
    rcases he with rfl | rfl | rfl | rfl | rfl <;> exact ⟨rfl, by simp [NonNeg]⟩
  · simp only [List.map_cons, List.map_nil]; unfold LexLt; decide
  · intro e he
    simp only [List.mem_cons, List.not_mem_nil, or_false] at he
    rcases he with rfl | rfl | rfl | rfl | rfl <;> rfl

/-- The polynomial. -/
noncomputable def Spec.dworkPoly {R : Type} [CommRing R] (c : R) : MvPolynomial (Fin (3 + 1)) R :=
  X 0 ^ 4 + X 1 ^ 4 + X 2 ^ 4 + X 3 ^ 4 + C c * (X 0 * X 1 * X 2 * X 3)

theorem expo_unit {R : Type} [CommRing R] (i : Fin (3 + 1)) (u : IVec)
    (h : ∀ j : Fin (3 + 1), expo (3 + 1) u j = if j = i then 4 else 0) : monomial (expo (3 + 1) u) (1 : R) = X i ^ 4 := by
  rw [X_pow_eq_monomial]
  refine congrArg (fun a => monomial a (1 : R)) (Finsupp.ext fun j => ?_)
  rw [h, Finsupp.single_apply]
  simp only [eq_comm]

theorem dworkMap_poly {R : Type} [CommRing R] (c : R) : toPoly (3 + 1) (dworkMap c) = dworkPoly c := by
  have h1 : monomial (expo (3 + 1) [1, 1, 1, 1]) c = C c * (X 0 * X 1 * X 2 * X 3) := by
    have : (X 0 * X 1 * X 2 * X 3 : MvPolynomial (Fin (3 + 1)) R) = monomial (expo (3 + 1) [1, 1, 1, 1]) 1 := by
      simp only [X, monomial_mul, mul_one]
      refine congrArg (fun a => monomial a (1 : R)) (Finsupp.ext fun j => ?_)
      fin_cases j <;> simp [expo_apply]
    rw [this, C_mul_monomial, mul_one]
  rw [dworkMap_eq, toPoly_cons, toPoly_cons, toPoly_cons, toPoly_cons, toPoly_cons, toPoly_nil, add_zero, dworkPoly, h1,
    expo_unit 3 _ (by intro j; fin_cases j <;> simp [expo_apply]), expo_unit 2 _ (by intro j; fin_cases j <;> simp [expo_apply]),
    expo_unit 1 _ (by intro j; fin_cases j <;> simp [expo_apply]), expo_unit 0 _ (by intro j; fin_cases j <;> simp [expo_apply])]
  ring

section

variable {p : ℕ} [hprime : Fact p.Prime]

/-- The partial derivatives at a point. -/
theorem dwork_pderiv {K : Type} [Field K] [Algebra (ZMod p) K] (c : ZMod p) (x : Fin (3 + 1) → K) :
    aeval x (pderiv 0 (dworkPoly c)) = 4 * x 0 ^ 3 + algebraMap _ K c * (x 1 * x 2 * x 3) ∧
    aeval x (pderiv 1 (dworkPoly c)) = 4 * x 1 ^ 3 + algebraMap _ K c * (x 0 * x 2 * x 3) ∧
    aeval x (pderiv 2 (dworkPoly c)) = 4 * x 2 ^ 3 + algebraMap _ K c * (x 0 * x 1 * x 3) ∧
    aeval x (pderiv 3 (dworkPoly c)) = 4 * x 3 ^ 3 + algebraMap _ K c * (x 0 * x 1 * x 2) := by
  refine ⟨?_, ?_, ?_, ?_⟩ <;>
  · simp [dworkPoly, pderiv_mul, pderiv_pow, pderiv_X, Pi.single_apply]
    try first | (left; ring) | ring

/-- **C69 (smoothness).**  For an odd prime the surface is smooth if and only if it is non-degenerate if and only if
`lambda^4 <> 256` modulo `p`. -/
theorem C69_smooth (hp : p ≠ 2) (c : ZMod p) :
    (NoCommonZero.{0} (fun i => pderiv i (dworkPoly c)) ↔ c ^ 4 ≠ 256) ∧
    (NoCommonZero.{0} (fun i => X i * pderiv i (dworkPoly c)) ↔ c ^ 4 ≠ 256) := by
  have h2 : (2 : ZMod p) ≠ 0 := by
    intro h
    have : ((2 : ℕ) : ZMod p) = 0 := by exact_mod_cast h
    rw [ZMod.natCast_eq_zero_iff] at this
    exact hp ((Nat.prime_dvd_prime_iff_eq hprime.out Nat.prime_two).1 this)
  -- a common zero of all `x_i f_i`
  have key : c ^ 4 ≠ 256 → NoCommonZero.{0} (fun i => X i * pderiv i (dworkPoly c)) := by
    intro hc K _ _ x hx
    have h2K : (2 : K) ≠ 0 := by
      intro h
      apply h2
      apply (algebraMap (ZMod p) K).injective
      rw [map_ofNat, map_zero]
      exact h
    obtain ⟨e0, e1, e2, e3⟩ := dwork_pderiv c x
    have f0 := hx 0
    have f1 := hx 1
    have f2 := hx 2
    have f3 := hx 3
    beta_reduce at f0 f1 f2 f3
    rw [map_mul, aeval_X, e0] at f0
    rw [map_mul, aeval_X, e1] at f1
    rw [map_mul, aeval_X, e2] at f2
    rw [map_mul, aeval_X, e3] at f3
    have hcK : (algebraMap (ZMod p) K c) ^ 4 ≠ 256 := by
      intro h
      apply hc
      apply (algebraMap (ZMod p) K).injective
      rw [map_pow, map_ofNat]
      exact h
    generalize algebraMap (ZMod p) K c = l at *
    obtain ⟨π, hπ⟩ : ∃ π, π = x 0 * x 1 * x 2 * x 3 := ⟨_, rfl⟩
    have g0 : 4 * x 0 ^ 4 = -(l * π) := by rw [hπ]; linear_combination f0
    have g1 : 4 * x 1 ^ 4 = -(l * π) := by rw [hπ]; linear_combination f1
    have g2 : 4 * x 2 ^ 4 = -(l * π) := by rw [hπ]; linear_combination f2
    have g3 : 4 * x 3 ^ 4 = -(l * π) := by rw [hπ]; linear_combination f3
    have hprod : 256 * π ^ 4 = l ^ 4 * π ^ 4 := by
      calc 256 * π ^ 4 = (4 * x 0 ^ 4) * (4 * x 1 ^ 4) * (4 * x 2 ^ 4) * (4 * x 3 ^ 4) := by rw [hπ]; ring
        _ = l ^ 4 * π ^ 4 := by rw [g0, g1, g2, g3]; ring
    have hπ0 : π = 0 := by
      by_contra h
      exact hcK (mul_right_cancel₀ (pow_ne_zero 4 h) hprod).symm
    have h4K : (4 : K) ≠ 0 := by
      have : (4 : K) = 2 * 2 := by norm_num
      rw [this]
      exact mul_ne_zero h2K h2K
    have hz : ∀ y : K, 4 * y ^ 4 = -(l * π) → y = 0 := by
      intro y hy
      rw [hπ0, mul_zero, neg_zero] at hy
      exact pow_eq_zero_iff (by norm_num) |>.1 ((mul_eq_zero.1 hy).resolve_left h4K)
    funext i
    fin_cases i
    · exact hz _ g0
    · exact hz _ g1
    · exact hz _ g2
    · exact hz _ g3
  -- a singular point
  have sing : c ^ 4 = 256 → ¬ NoCommonZero.{0} (fun i => pderiv i (dworkPoly c)) := by
    intro hc h
    have h256 : (256 : ZMod p) ≠ 0 := by
      have : (256 : ZMod p) = 2 ^ 8 := by norm_num
      rw [this]
      exact pow_ne_zero 8 h2
    have hc0 : c ≠ 0 := by
      rintro rfl
      exact h256 (by rw [← hc]; ring)
    have h0 := h (ZMod p) ![1, 1, 1, -4 / c] (fun i => by
      obtain ⟨e0, e1, e2, e3⟩ := dwork_pderiv c ![1, 1, 1, -4 / c]
      beta_reduce
      fin_cases i
      · refine e0.trans ?_
        simp
        field_simp
        ring
      · refine e1.trans ?_
        simp
        field_simp
        ring
      · refine e2.trans ?_
        simp
        field_simp
        ring
      · refine e3.trans ?_
        simp
        field_simp
        linear_combination hc)
    have := congrFun h0 0
    simp at this
  have hmul : NoCommonZero.{0} (fun i => X i * pderiv i (dworkPoly c)) → NoCommonZero.{0} (fun i => pderiv i (dworkPoly c)) := by
    intro h K _ _ x hx
    refine h K x (fun i => ?_)
    have := hx i
    beta_reduce at this ⊢
    rw [map_mul, this, mul_zero]
  exact ⟨⟨fun h hc => sing hc h, fun h => hmul (key h)⟩, fun h hc => sing hc (hmul h), key⟩

/-- In characteristic 2 the surface is singular for every `lambda`. -/
theorem C69_two (hprime : Fact (Nat.Prime 2)) (c : ZMod 2) : ¬ NoCommonZero.{0} (fun i => pderiv i (dworkPoly c)) := by
  intro h
  have h0 := h (ZMod 2) ![1, 0, 0, 0] (fun i => by
    obtain ⟨e0, e1, e2, e3⟩ := dwork_pderiv c (![1, 0, 0, 0] : Fin (3 + 1) → ZMod 2)
    have h4 : (4 : ZMod 2) = 0 := rfl
    beta_reduce
    fin_cases i
    · refine e0.trans ?_
      simp [h4]
    · refine e1.trans ?_
      simp
    · refine e2.trans ?_
      simp
    · refine e3.trans ?_
      simp)
  have := congrFun h0 0
  simp at this

theorem dwork_args {a : DefaultArgs} (ha : defaultArgs p 3 4 = .ok a) :
    1 ≤ a.precision.toNat ∧ a.N.length = 3 ∧ ∀ x ∈ a.N, x ≤ 50 := by
  rw [da_3_4] at ha
  split_ifs at ha <;> (cases ha; decide)

/-- The lift of the surface modulo `p`. -/
theorem dwork_lift (K : ℕ) (c : ZMod p) : naiveLift (p ^ K) (dworkMap c) = repMap (p ^ K) (dworkMap c) :=
  naiveLift_eq (dworkMap_wf c).1

/-- **C69 (`K3_dwork.cc`, singular).**  When the surface is singular the program says so and goes on; it then stops at an assertion of
the constructor. -/
theorem C69_singular (la : RankDet (ZMod p)) (hla : RankDetOK la) {la' : LinAlg (ZMod p)} (hla' : LinAlgOK la') (flint pre : Bool)
    (order : ℕ → List ℕ) (lambda : ℤ) (hs : p = 2 ∨ (lambda : ZMod p) ^ 4 = 256) :
    (∀ K, 1 ≤ K → isSmooth la (p ^ K) (dworkMap (lambda : ZMod p)) = .ok false) ∧
    dworkProgram p la (frobRoutine p la' flint pre order) lambda = .error .assertFail := by
  have hp : p.Prime := hprime.out
  obtain ⟨h1, h2, h3⟩ := dworkMap_wf (lambda : ZMod p)
  have hns : ¬ NoCommonZero.{0} (fun i => pderiv i (toPoly (3 + 1) (dworkMap (lambda : ZMod p)))) := by
    rw [dworkMap_poly]
    by_cases h : p = 2
    · subst h; exact C69_two hprime _
    · exact fun hz => (C69_smooth h _).1.1 hz (hs.resolve_left h)
  have hsm : ∀ K, 1 ≤ K → isSmooth la (p ^ K) (dworkMap (lambda : ZMod p)) = .ok false := by
    intro K hK
    have : NeZero (p ^ K) := ⟨pow_ne_zero _ hp.ne_zero⟩
    obtain ⟨b, e, hb⟩ := (C60_tests (q := p ^ K) (dvd_pow_self p (by omega)) la hla _ h1 h2 h3 (by norm_num) size_quartic).1
    cases b with
    | true => exact absurd (hb.1 rfl) hns
    | false => exact e
  refine ⟨hsm, ?_⟩
  obtain ⟨a, ha⟩ := (C12_domain p 3 4).1 (by decide)
  have hK := (dwork_args ha).1
  have hdvd : p ∣ p ^ a.precision.toNat := dvd_pow_self p (by omega)
  have hfr : frobRoutine p la' flint pre order a.precision.toNat true (repMap (p ^ a.precision.toNat) (dworkMap (lambda : ZMod p)))
      a.N = .error .assertFail := by
    have hinit := (C59_nondegenerate hK hdvd hla' flint le_rfl (repMap_wf h1) (repMap_ne h2) (repMap_deg h3) size_quartic
      (by norm_num)).2 (fun h => hns (by
        have hn := h.2.2
        rw [nondeg_repMap] at hn
        intro F _ _ x hx
        refine hn F x (fun i => ?_)
        have := hx i
        beta_reduce at this ⊢
        rw [map_mul, this, mul_zero]))
    have hinit' : ND.init (fun T => solveSystemPadic la' flint T a.precision.toNat) p
      (repMap (p ^ a.precision.toNat) (dworkMap (lambda : ZMod p))) = .error .assertFail := hinit
    rw [frobRoutine, if_pos rfl, hinit']
    rfl
  rw [dworkProgram, ha, Res.bind_ok]
  simp only [hsm _ hK, Res.bind_ok, dwork_lift, hfr]
  rfl

/-- **C69 (`K3_dwork.cc`, smooth).**  For an odd prime and `lambda^4 <> 256` the object is built for the lift with coefficients
`0 .. p-1`; the cohomology has dimension 21; and, if the finite differences handle the surface, either the exact division fails or the
matrix computed is the Frobenius matrix, and the output is the polynomial `W` of degree 21 which has the properties of the
Frobenius polynomial and agrees with the characteristic polynomial of the matrix to the precisions of the table. -/
theorem C69_dwork_partial (la : RankDet (ZMod p)) (hla : RankDetOK la) {la' : LinAlg (ZMod p)} (hla' : LinAlgOK la')
    (flint pre : Bool) {order : ℕ → List ℕ} (ho : ∀ b, (order b).Perm (List.range b)) (lambda : ℤ) (hp2 : p ≠ 2)
    (hc : (lambda : ZMod p) ^ 4 ≠ 256) :
    ∃ (a : DefaultArgs) (hK : 1 ≤ a.precision.toNat) (g : MonMap (ZMod (p ^ a.precision.toNat)))
      (D : ND (ZMod (p ^ a.precision.toNat))),
      defaultArgs p 3 4 = .ok a ∧
      reduce (dvd_pow_self p (by omega)) (toPoly (3 + 1) g) = dworkPoly (lambda : ZMod p) ∧
      (∀ e ∈ g, ∃ c : ℕ, c < p ∧ e.2 = (c : ZMod (p ^ a.precision.toNat))) ∧
      ConstructedND (padicSolver p a.precision.toNat la' flint a.precision.toNat) p g 3 4 D ∧ D.basis.length = 21 ∧
      (FlintBatchOK (p ^ a.precision.toNat) p 3 4 (padicSolver p a.precision.toNat la' flint a.precision.toNat) D →
        (dworkProgram p la (frobRoutine p la' flint pre order) lambda = .error .assertFail ∧
          DivisionMayFail p 3 4 D.basis a.N) ∨
        ∃ Φ : Matrix (Fin D.basis.length) (Fin D.basis.length) (ZMod (p ^ a.precision.toNat)),
          IsFrobenius (toPoly (3 + 1) g) 4 p D.basis a.N (CMat.ofMatrix Φ).e ∧
          ∀ (W : Polynomial ℤ) (ε : ℤ), W.Monic → W.natDegree = 21 → WeilRoots W p 2 → (ε = 1 ∨ ε = -1) →
            FunctionalEquation W 21 p 2 ε →
            (∀ i, 1 ≤ i → i < 21 → (Φ.map (fun x => (x.val : ℤ))).charpoly.coeff i ≡ W.coeff i
              [ZMOD (p : ℤ) ^ (a.charpolyPrec.getD i 0).toNat]) →
            (ε = 1 ∨ ∃ j, 1 ≤ j ∧ 2 * j ≤ 21 ∧
              ¬ (p : ℤ) ^ (min (a.charpolyPrec.getD j 0)
                (a.charpolyPrec.getD (21 - j) 0 + halfWeight 21 2 j)).toNat ∣ W.coeff j) →
            dworkProgram p la (frobRoutine p la' flint pre order) lambda = .ok ((List.range 22).map W.coeff)) := by
  have hp : p.Prime := hprime.out
  obtain ⟨h1, h2, h3⟩ := dworkMap_wf (lambda : ZMod p)
  have hnd : NoCommonZero.{0} (fun i => X i * pderiv i (toPoly (3 + 1) (dworkMap (lambda : ZMod p)))) := by
    rw [dworkMap_poly]
    exact (C69_smooth hp2 _).2.2 hc
  obtain ⟨a, ha⟩ := (C12_domain p 3 4).1 (by decide)
  have hK := (dwork_args ha).1
  have hdvd : p ∣ p ^ a.precision.toNat := dvd_pow_self p (by omega)
  have hpd : ¬ p ∣ 4 := fun h => hp2 ((Nat.prime_dvd_prime_iff_eq hp Nat.prime_two).1
    (hp.dvd_of_dvd_pow (show p ∣ 2 ^ 2 by simpa using h)))
  have hNl := (dwork_args ha).2
  obtain ⟨D, hC, hbr⟩ := C65_branch_ND_partial hK hdvd hla' flint pre ho (by norm_num) (by norm_num) (repMap_wf h1)
    (repMap_ne h2) (repMap_deg h3) size_quartic hpd ((nondeg_repMap hdvd _).2 hnd) hNl.1 (fun x hx => termsFit_three le_rfl (hNl.2 x hx))
  have hb21 : D.basis.length = 21 := by
    have h := C45_rank (C45_base_ND hC)
    norm_num at h
    have h' : D.toDR.basis.length = 21 := by omega
    exact h'
  refine ⟨a, hK, _, D, ha, ?_, ?_, hC, ?_, ?_⟩
  · rw [reduce_repMap, dworkMap_poly]
  · intro e he
    obtain ⟨x, -, rfl⟩ := List.mem_map.1 he
    exact ⟨x.2.val, ZMod.val_lt _, rfl⟩
  · exact hb21
  · intro hfl
    obtain ⟨b, e, -⟩ := (C60_tests (q := p ^ a.precision.toNat) hdvd la hla _ h1 h2 h3 (by norm_num) size_quartic).1
    have hrun : dworkProgram p la (frobRoutine p la' flint pre order) lambda =
        (frobRoutine p la' flint pre order a.precision.toNat true (repMap (p ^ a.precision.toNat) (dworkMap (lambda : ZMod p))) a.N
          >>= fun F => charpolyFrob (repMat F.2) a.charpolyPrec p 2) := by
      rw [dworkProgram, ha, Res.bind_ok]
      simp only [e, Res.bind_ok, dwork_lift]
    rcases hbr hfl with ⟨hbr, hdiv⟩ | ⟨Φ, hbr, hΦ⟩
    · left
      exact ⟨by rw [hrun, hbr]; rfl, hdiv⟩
    right
    refine ⟨Φ, hΦ, fun W ε hmon hdegW hW hε hfe hA hsign => ?_⟩
    rw [hrun, hbr, Res.bind_ok]
    have hrep : repMat (CMat.ofMatrix Φ) = CMat.ofMatrix (Φ.map (fun x => (x.val : ℤ))) := by
      simp only [repMat, CMat.ofMatrix, CMat.mk.injEq, true_and]
      funext i j
      split_ifs <;> simp
    simp only [hrep]
    have hodd : Odd p := hp.odd_of_ne_two hp2
    have h3p : 3 ≤ p := by have := hp.two_le; omega
    have hb : D.basis.length = 21 := hb21
    have := C14_default_precisions p h3p hodd 3 4 a ha (b := D.basis.length) (by rw [hb]; decide)
      (Φ.map (fun x => (x.val : ℤ))) W hmon (by rw [hb]; exact hdegW) hW ε hε (by rw [hb]; exact hfe) (fun i h1 hi => hA i h1 (by omega))
      (by
        rw [hb]
        exact hsign.imp id (fun h => ⟨by decide, h⟩))
    exact this.trans (by rw [hb])

theorem dwork_reduce (q : ℕ) (lambda : ℤ) : reduceCoeffs q (dworkMap lambda) = dworkMap (lambda : ZMod q) := by
  rw [dworkMap_eq, dworkMap_eq]
  simp [reduceCoeffs]

/-- **C69 (`K3_dwork2.cc`, singular).**  The library stops with a message. -/
theorem C69_singular2 (la : RankDet (ZMod p)) (hla : RankDetOK la) (rnd : Rnd (ZMod p)) (t : ℕ) (frob : FrobRoutine p)
    (lambda : ℤ) (hs : p = 2 ∨ (lambda : ZMod p) ^ 4 = 256) : dwork2Program p la rnd t frob lambda = .error .abort := by
  obtain ⟨h1, h2, h3⟩ := dworkMap_wf lambda
  refine C40_singular (n := 3) (d := 4) la hla rnd t frob (dworkMap lambda) h1 h2 h3 0 true true (fun hz => ?_)
  have hz := noCommonZero_of_ideal.{0} (by norm_num) hz
  rw [dwork_reduce, dworkMap_poly] at hz
  by_cases h : p = 2
  · subst h; exact C69_two hprime _ hz
  · exact (C69_smooth h _).1.1 hz (hs.resolve_left h)

/-- **C69 (`K3_dwork2.cc`, smooth).**  For an odd prime and `lambda^4 <> 256` no search for a better model takes place: the
object is built for `x^4 + y^4 + z^4 + w^4 + lambda x y z w` modulo `p^N` itself. -/
theorem C69_dwork2_partial (la : RankDet (ZMod p)) (hla : RankDetOK la) (rnd : Rnd (ZMod p)) (t : ℕ) {la' : LinAlg (ZMod p)}
    (hla' : LinAlgOK la') (flint pre : Bool) {order : ℕ → List ℕ} (ho : ∀ b, (order b).Perm (List.range b)) (lambda : ℤ)
    (hp2 : p ≠ 2) (hc : (lambda : ZMod p) ^ 4 ≠ 256) :
    ∃ (a : DefaultArgs) (D : ND (ZMod (p ^ a.precision.toNat))), defaultArgs p 3 4 = .ok a ∧
      ConstructedND (padicSolver p a.precision.toNat la' flint a.precision.toNat) p
        (dworkMap (lambda : ZMod (p ^ a.precision.toNat))) 3 4 D ∧ D.basis.length = 21 ∧
      (FlintBatchOK (p ^ a.precision.toNat) p 3 4 (padicSolver p a.precision.toNat la' flint a.precision.toNat) D →
        (dwork2Program p la rnd t (frobRoutine p la' flint pre order) lambda = .error .assertFail ∧
          DivisionMayFail p 3 4 D.basis a.N) ∨
        ∃ Φ : Matrix (Fin D.basis.length) (Fin D.basis.length) (ZMod (p ^ a.precision.toNat)),
          IsFrobenius (dworkPoly (lambda : ZMod (p ^ a.precision.toNat))) 4 p D.basis a.N (CMat.ofMatrix Φ).e ∧
          ∀ (W : Polynomial ℤ) (ε : ℤ), W.Monic → W.natDegree = 21 → WeilRoots W p 2 → (ε = 1 ∨ ε = -1) →
            FunctionalEquation W 21 p 2 ε →
            (∀ i, 1 ≤ i → i < 21 → (Φ.map (fun x => (x.val : ℤ))).charpoly.coeff i ≡ W.coeff i
              [ZMOD (p : ℤ) ^ (a.charpolyPrec.getD i 0).toNat]) →
            (ε = 1 ∨ ∃ j, 1 ≤ j ∧ 2 * j ≤ 21 ∧
              ¬ (p : ℤ) ^ (min (a.charpolyPrec.getD j 0)
                (a.charpolyPrec.getD (21 - j) 0 + halfWeight 21 2 j)).toNat ∣ W.coeff j) →
            dwork2Program p la rnd t (frobRoutine p la' flint pre order) lambda =
              .ok (some ((List.range 22).map W.coeff, CMat.ofMatrix (Φ.map (fun x => (x.val : ℤ)))))) := by
  have hp : p.Prime := hprime.out
  obtain ⟨h1, h2, h3⟩ := dworkMap_wf lambda
  obtain ⟨g1, g2, g3⟩ := dworkMap_wf (lambda : ZMod p)
  have hsm : NoCommonZero.{0} (fun i => pderiv i (toPoly (3 + 1) (dworkMap (lambda : ZMod p)))) := by
    rw [dworkMap_poly]
    exact (C69_smooth hp2 _).1.2 hc
  have hnd : NoCommonZero.{0} (fun i => X i * pderiv i (toPoly (3 + 1) (dworkMap (lambda : ZMod p)))) := by
    rw [dworkMap_poly]
    exact (C69_smooth hp2 _).2.2 hc
  obtain ⟨a, ha⟩ := (C12_domain p 3 4).1 (by decide)
  have hK := (dwork_args ha).1
  have hdvd : p ∣ p ^ a.precision.toNat := dvd_pow_self p (by omega)
  have hpd : ¬ p ∣ 4 := fun h => hp2 ((Nat.prime_dvd_prime_iff_eq hp Nat.prime_two).1
    (hp.dvd_of_dvd_pow (show p ∣ 2 ^ 2 by simpa using h)))
  have hNl := (dwork_args ha).2
  obtain ⟨q1, q2, q3⟩ := dworkMap_wf (lambda : ZMod (p ^ a.precision.toNat))
  have hnq : NondegMod hdvd (toPoly (3 + 1) (dworkMap (lambda : ZMod (p ^ a.precision.toNat)))) := by
    have : reduce hdvd (toPoly (3 + 1) (dworkMap (lambda : ZMod (p ^ a.precision.toNat)))) =
        toPoly (3 + 1) (dworkMap (lambda : ZMod p)) := by
      rw [dworkMap_poly, dworkMap_poly]
      simp [reduce, dworkPoly]
    rw [NondegMod, this]
    exact hnd
  obtain ⟨D, hC, hbr⟩ := C65_branch_ND_partial hK hdvd hla' flint pre ho (by norm_num) (by norm_num) q1 q2 q3
    size_quartic hpd hnq hNl.1 (fun x hx => termsFit_three le_rfl (hNl.2 x hx))
  have hb21 : D.basis.length = 21 := by
    have h := C45_rank (C45_base_ND hC)
    norm_num at h
    have h' : D.toDR.basis.length = 21 := by omega
    exact h'
  refine ⟨a, D, ha, hC, hb21, fun hfl => ?_⟩
  have : NeZero (p ^ a.precision.toNat) := ⟨pow_ne_zero _ hp.ne_zero⟩
  obtain ⟨⟨b1, e1, hb1⟩, b2, e2, hb2⟩ := C60_tests (q := p ^ a.precision.toNat) hdvd la hla _ g1 g2 g3 (by norm_num) size_quartic
  obtain rfl := hb1.2 hsm
  obtain rfl := hb2.2 hnd
  have hcp : D.basis.length + 1 = a.charpolyPrec.length := C40_basis_assertion hp (C45_base_ND hC) ha
  have hrun : dwork2Program p la rnd t (frobRoutine p la' flint pre order) lambda =
      (frobRoutine p la' flint pre order a.precision.toNat true (dworkMap (lambda : ZMod (p ^ a.precision.toNat))) a.N >>= fun F => do
        check (decide (F.1 + 1 = a.charpolyPrec.length))
        let cp ← charpolyFrob (repMat F.2) a.charpolyPrec p 2
        .ok (some (cp, repMat F.2))) := by
    have hz : choosePrec p (3 : ℕ) (4 : ℕ) 0 true = .ok ⟨a.precision, a.N, a.charpolyPrec, true⟩ := by
      rw [C40_precision_default _ _ _ _ _ le_rfl]
      rw [show defaultArgs p (3 : ℕ) (4 : ℕ) = .ok a from ha]
      rfl
    have hch : chooseModel la rnd t (p ^ a.precision.toNat) true (reduceCoeffs p (dworkMap lambda))
        (reduceCoeffs (p ^ a.precision.toNat) (dworkMap lambda)) =
        .ok (some (true, dworkMap (lambda : ZMod (p ^ a.precision.toNat)))) := by
      rw [dwork_reduce, dwork_reduce, chooseModel, e1, Res.bind_ok, if_pos rfl, e2, Res.bind_ok]
      rfl
    rw [dwork2Program, zetaMain_eq (n := 3) (d := 4) la rnd t _ _ h1 h2 h3, hz, Res.bind_ok]
    simp only [hch, Res.bind_ok, zetaPoly, if_true]
    rfl
  rcases hbr hfl with ⟨hbr, hdiv⟩ | ⟨Φ, hbr, hΦ⟩
  · left
    exact ⟨by rw [hrun, hbr]; rfl, hdiv⟩
  right
  rw [dworkMap_poly] at hΦ
  refine ⟨Φ, hΦ, fun W ε hmon hdegW hW hε hfe hA hsign => ?_⟩
  rw [hrun, hbr, Res.bind_ok]
  have hrep : repMat (CMat.ofMatrix Φ) = CMat.ofMatrix (Φ.map (fun x => (x.val : ℤ))) := by
    simp only [repMat, CMat.ofMatrix, CMat.mk.injEq, true_and]
    funext i j
    split_ifs <;> simp
  have hodd : Odd p := hp.odd_of_ne_two hp2
  have h3p : 3 ≤ p := by have := hp.two_le; omega
  have hcpf := C14_default_precisions p h3p hodd 3 4 a ha (b := D.basis.length) (by rw [hb21]; decide)
    (Φ.map (fun x => (x.val : ℤ))) W hmon (by rw [hb21]; exact hdegW) hW ε hε (by rw [hb21]; exact hfe)
    (fun i h1 hi => hA i h1 (by omega)) (by
      rw [hb21]
      exact hsign.imp id (fun h => ⟨by decide, h⟩))
  simp only [hrep]
  rw [decide_eq_true hcp, check_true, Res.bind_ok]
  rw [show charpolyFrob (CMat.ofMatrix (Φ.map (fun x => (x.val : ℤ)))) a.charpolyPrec p 2 = _ from hcpf, Res.bind_ok,
    show List.range (D.basis.length + 1) = List.range 22 by rw [hb21]]

/-! ### Examples -/

/-- `p = 3`: `lambda^4 = 256 = 1` for `lambda` prime to 3; the surface with `lambda = 3` is smooth, that with `lambda = 1` is
not.  `p = 5`: `256 = 1` and only multiples of 5 give smooth surfaces.  `p = 7`: `256 = 4`, `3^4 = 4`, `1^4 <> 4`. -/
example : ((3 : ℤ) : ZMod 3) ^ 4 ≠ 256 ∧ ((1 : ℤ) : ZMod 3) ^ 4 = 256 ∧ ((2 : ℤ) : ZMod 5) ^ 4 = 256 ∧
    ((3 : ℤ) : ZMod 7) ^ 4 = 256 ∧ ((1 : ℤ) : ZMod 7) ^ 4 ≠ 256 := by decide

/-- In characteristic 3 the finite differences are not used, and the hypotheses of the smooth case are met by `lambda = 3`:
both programs build their objects. -/
example (hprime : Fact (Nat.Prime 3)) (la : RankDet (ZMod 3)) (hla : RankDetOK la) (rnd : Rnd (ZMod 3)) (t : ℕ)
    {la' : LinAlg (ZMod 3)} (hla' : LinAlgOK la') (flint pre : Bool) {order : ℕ → List ℕ}
    (ho : ∀ b, (order b).Perm (List.range b)) :
    ∃ (a : DefaultArgs) (D : ND (ZMod (3 ^ a.precision.toNat))), defaultArgs 3 3 4 = .ok a ∧
      ConstructedND (padicSolver 3 a.precision.toNat la' flint a.precision.toNat) 3
        (dworkMap ((3 : ℤ) : ZMod (3 ^ a.precision.toNat))) 3 4 D ∧
      ((dwork2Program 3 la rnd t (frobRoutine 3 la' flint pre order) 3 = .error .assertFail) ∨
        ∃ Φ : Matrix (Fin D.basis.length) (Fin D.basis.length) (ZMod (3 ^ a.precision.toNat)),
          IsFrobenius (dworkPoly ((3 : ℤ) : ZMod (3 ^ a.precision.toNat))) 4 3 D.basis a.N (CMat.ofMatrix Φ).e) := by
  obtain ⟨a, D, h1, h2, -, h⟩ := C69_dwork2_partial la hla rnd t hla' flint pre ho 3 (by norm_num) (by
    have : (((3 : ℤ) : ZMod 3)) ^ 4 = 0 := rfl
    rw [this]
    exact fun h => (by cases h))
  refine ⟨a, D, h1, h2, ?_⟩
  rcases h (Or.inr (Or.inl (by norm_num))) with ⟨h, -⟩ | ⟨Φ, h, -⟩
  · exact Or.inl h
  · exact Or.inr ⟨Φ, h⟩

/-- The surface with `lambda = 4` is singular modulo every prime. -/
example (hprime : Fact p.Prime) (la : RankDet (ZMod p)) (hla : RankDetOK la) {la' : LinAlg (ZMod p)} (hla' : LinAlgOK la')
    (flint pre : Bool) (order : ℕ → List ℕ) :
    dworkProgram p la (frobRoutine p la' flint pre order) 4 = .error .assertFail :=
  (C69_singular la hla hla' flint pre order 4 (Or.inr (by norm_num))).2

end

end Verif
