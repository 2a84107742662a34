import Verif.Lemmas.PicardPoly

/-!
The geometric Picard number: property C43.
-/

namespace Verif

open Polynomial Spec

theorem shiftLoop_ok {p : ℕ} (hp : 0 < p) : ∀ (k i : ℕ) (f : ℤ[X]),
    (∃ g, shiftLoop p k i ((p : ℤ) ^ i) f = .ok (some g) ∧
      ∀ j, if i ≤ j ∧ j < i + k then f.coeff j = g.coeff j * (p : ℤ) ^ j else g.coeff j = f.coeff j) ∨
    (shiftLoop p k i ((p : ℤ) ^ i) f = .ok none ∧ ∃ j, i ≤ j ∧ j < i + k ∧ ¬ (p : ℤ) ^ j ∣ f.coeff j)
  | 0, i, f => by
    left
    refine ⟨f, rfl, fun j => ?_⟩
    rw [if_neg (by omega)]
  | k + 1, i, f => by
    have hpw : ((p : ℤ) ^ i) ≠ 0 := pow_ne_zero _ (by exact_mod_cast hp.ne')
    rw [shiftLoop, if_neg hpw]
    simp only
    by_cases hr : (f.coeff i).fmod ((p : ℤ) ^ i) = 0
    · rw [if_neg (by rw [not_not]; exact hr), ← pow_succ]
      have hdiv : f.coeff i = (f.coeff i).fdiv ((p : ℤ) ^ i) * (p : ℤ) ^ i := by
        have := Int.mul_fdiv_add_fmod (f.coeff i) ((p : ℤ) ^ i)
        rw [hr, add_zero] at this
        rw [mul_comm]; exact this.symm
      rcases shiftLoop_ok hp k (i + 1) (f.update i ((f.coeff i).fdiv ((p : ℤ) ^ i))) with ⟨g, e, hg⟩ | ⟨e, j, h1, h2, h3⟩
      · left
        refine ⟨g, e, fun j => ?_⟩
        have := hg j
        by_cases hj : j = i
        · subst hj
          rw [if_neg (by omega), coeff_update_same] at this
          rw [if_pos (by omega), this]
          exact hdiv
        · rw [coeff_update_ne _ _ hj] at this
          by_cases hj2 : i + 1 ≤ j ∧ j < i + 1 + k
          · rw [if_pos hj2] at this
            rw [if_pos (by omega)]; exact this
          · rw [if_neg hj2] at this
            rw [if_neg (by omega)]; exact this
      · right
        refine ⟨e, j, by omega, by omega, ?_⟩
        rw [coeff_update_ne _ _ (by omega)] at h3
        exact h3
    · right
      rw [if_pos hr]
      refine ⟨rfl, i, le_refl _, by omega, fun h => hr (Int.fmod_eq_zero_of_dvd h)⟩

theorem cycloLoop_ok {cmp : Nat → Nat → Bool} {N degree K : ℕ} {f : ℤ[X]}
    (hN : ∀ k, 1 ≤ k → (∀ j, 1 ≤ j → j ≤ k → cmp j degree = true) → k < N) (hK : cmp K degree = false) :
    ∀ (t k : ℕ), 1 ≤ k → k ≤ K → K < k + t → (∀ j, 1 ≤ j → j < k → cmp j degree = true ∧ f ≠ cyclotomic j ℤ) →
    ∃ r, cycloLoop cmp ((List.range N).map (fun i => cyclotomic i ℤ)) f degree t k = .ok (some r) ∧
      ((r = degree ∧ ∃ j, 1 ≤ j ∧ f = cyclotomic j ℤ) ∨
       (r = 0 ∧ ∀ j, 1 ≤ j → f = cyclotomic j ℤ → ∃ i, 1 ≤ i ∧ i ≤ j ∧ cmp i degree = false))
  | 0, k, _, _, h, _ => by omega
  | t + 1, k, hk, hkK, h, hinv => by
    rw [cycloLoop]
    by_cases hc : cmp k degree = true
    · rw [if_pos hc]
      have hkN := hN k hk (fun j h1 h2 => by
        rcases (show j < k ∨ j = k by omega) with h3 | h3
        · exact (hinv j h1 h3).1
        · rw [h3]; exact hc)
      have hget : ((List.range N).map (fun i => cyclotomic i ℤ))[k]? = some (cyclotomic k ℤ) := by
        rw [List.getElem?_map, List.getElem?_range hkN]; rfl
      rw [hget]
      simp only
      by_cases hf : f = cyclotomic k ℤ
      · rw [if_pos hf]
        exact ⟨_, rfl, Or.inl ⟨rfl, k, hk, hf⟩⟩
      · rw [if_neg hf]
        have hne : k ≠ K := fun h' => by rw [h', hK] at hc; cases hc
        refine cycloLoop_ok hN hK t (k + 1) (by omega) (by omega) (by omega) (fun j h1 h2 => ?_)
        rcases (show j < k ∨ j = k by omega) with h3 | h3
        · exact hinv j h1 h3
        · rw [h3]; exact ⟨hc, hf⟩
    · rw [if_neg hc]
      refine ⟨0, rfl, Or.inr ⟨rfl, fun j h1 h2 => ?_⟩⟩
      have : k ≤ j := by
        by_contra h'
        exact (hinv j h1 (by omega)).2 h2
      exact ⟨k, hk, this, by simpa using hc⟩

/-- `cyclo` is long enough for polynomials of degree `d`. -/
def TableFor (cmp : Nat → Nat → Bool) (N d : ℕ) : Prop :=
  ∀ k, 1 ≤ k → (∀ j, 1 ≤ j → j ≤ k → cmp j d = true) → k < N

theorem number_ok {cmp : Nat → Nat → Bool} (hc : CmpOK cmp) {p : ℕ} (hp : 0 < p) {g : ℤ[X]} (hg : Irreducible g)
    (hd : 0 < g.natDegree) (hl : 0 < g.leadingCoeff) {N : ℕ} (hN : TableFor cmp N g.natDegree) {K t : ℕ} (hK1 : 1 ≤ K)
    (hK : cmp K g.natDegree = false) (ht : K < t) :
    numberOfRootsOfUnity cmp ((List.range N).map (fun i => cyclotomic i ℤ)) g p t = .ok (some (invRoots p g : ℤ)) := by
  rw [numberOfRootsOfUnity]
  have hirr := invRoots_irreducible hp hg hd hl
  have hs := shiftLoop_ok hp g.natDegree 1 g
  rw [pow_one] at hs
  rcases hs with ⟨h, e, hh⟩ | ⟨e, j, h1, h2, h3⟩
  · rw [e, Res.bind_ok]
    simp only
    have hcomp : g = h.comp (C (p : ℤ) * X) := by
      ext j
      rw [comp_coeff]
      have := hh j
      by_cases hj : 1 ≤ j ∧ j < 1 + g.natDegree
      · rw [if_pos hj] at this; exact this
      · rw [if_neg hj] at this
        rcases (show j = 0 ∨ g.natDegree < j by omega) with h0 | h0
        · subst h0; rw [pow_zero, mul_one, this]
        · rw [this, coeff_eq_zero_of_natDegree_lt h0, zero_mul]
    obtain ⟨r, er, hr⟩ := cycloLoop_ok (f := h) hN hK t 1 (le_refl _) hK1 (by omega) (fun j h1 h2 => by omega)
    rw [er]
    congr 2
    rcases hr with ⟨rfl, j, hj, hf⟩ | ⟨rfl, hnone⟩
    · rcases hirr with ⟨-, h2⟩ | ⟨h1, -⟩
      · rw [h2]
      · exfalso
        apply h1
        refine ⟨j, hj, ?_⟩
        rw [hcomp, hf]; rfl
    · rcases hirr with ⟨⟨k, hk, hgk⟩, -⟩ | ⟨-, h2⟩
      · exfalso
        have : h = cyclotomic k ℤ := by
          apply comp_inj hp
          rw [← hcomp, hgk]; rfl
        obtain ⟨i, hi1, hi2, hi3⟩ := hnone k hk this
        have hdeg : g.natDegree = k.totient := by rw [hgk, cycS_natDegree hp]
        rw [hdeg, cmp_below hc hi1 hi2] at hi3
        cases hi3
      · rw [h2]; rfl
  · rw [e, Res.bind_ok]
    simp only
    rcases hirr with ⟨⟨k, hk, hgk⟩, -⟩ | ⟨-, h4⟩
    · exfalso
      apply h3
      rw [hgk, cycS, comp_coeff]
      exact Dvd.intro_left _ rfl
    · rw [h4]; rfl

/-- **C43 (one factor).**  Let `g` be an irreducible factor (with positive leading coefficient, as FLINT returns
them) and let the table of cyclotomic polynomials have the length `N` chosen by the code for a degree at least
that of `g`.  Then `number_of_roots_of_unity` stops without leaving the table and returns the degree of `g` if for
all complex roots `z` of `g` the number `p z` is a root of unity, and 0 otherwise; in the second case none of them
is. -/
theorem C43_number_of_roots_of_unity {cmp : Nat → Nat → Bool} (hc : CmpOK cmp) {p : ℕ} (hp : 0 < p) {g : ℤ[X]}
    (hg : Irreducible g) (hd : 0 < g.natDegree) (hl : 0 < g.leadingCoeff) {N maxDegree : ℕ} (hmax : g.natDegree ≤ maxDegree)
    (hN : ∃ t, tableLoop cmp maxDegree t 1 = some N) :
    ∃ T, ∀ t, T ≤ t → ∃ r : ℕ,
      numberOfRootsOfUnity cmp ((List.range N).map (fun i => cyclotomic i ℤ)) g p t = .ok (some (r : ℤ)) ∧
      ((r = g.natDegree ∧ ∀ z : ℂ, eval z (g.map (Int.castRingHom ℂ)) = 0 → IsRootOfUnity (p * z)) ∨
       (r = 0 ∧ ∀ z : ℂ, eval z (g.map (Int.castRingHom ℂ)) = 0 → ¬ IsRootOfUnity (p * z))) := by
  have hloop : ∀ t k, 1 ≤ k → (∀ j, 1 ≤ j → j < k → cmp j maxDegree = true) → tableLoop cmp maxDegree t k = some N →
      cmp N maxDegree = false := by
    intro t
    induction t with
    | zero => intro k _ _ h; cases h
    | succ t ih =>
      intro k hk hinv h
      rw [tableLoop] at h
      split at h
      · next hcmp =>
        refine ih (k + 1) (by omega) (fun j h1 h2 => ?_) h
        rcases (show j < k ∨ j = k by omega) with h3 | h3
        · exact hinv j h1 h3
        · rw [h3]; exact hcmp
      · next hcmp =>
        have := Option.some.inj h
        rw [← this]; simpa using hcmp
  have hloop1 : ∀ t k, 1 ≤ k → tableLoop cmp maxDegree t k = some N → 1 ≤ N := by
    intro t
    induction t with
    | zero => intro k _ h; cases h
    | succ t ih =>
      intro k hk h
      rw [tableLoop] at h
      split at h
      · exact ih (k + 1) (by omega) h
      · have := Option.some.inj h; omega
  obtain ⟨t0, ht0⟩ := hN
  have hNf := hloop t0 1 (le_refl _) (fun j h1 h2 => by omega) ht0
  have hN1 := hloop1 t0 1 (le_refl _) ht0
  have htab : TableFor cmp N g.natDegree := by
    intro k hk hall
    by_contra hlt
    have := hc.mono N _ _ hmax (hall N hN1 (by omega))
    rw [hNf] at this; cases this
  obtain ⟨K, hK1, hK⟩ := cmp_stops hc g.natDegree
  refine ⟨K + 1, fun t ht => ⟨invRoots p g, number_ok hc hp hg hd hl htab hK1 hK (by omega), ?_⟩⟩
  have hroot : ∀ z : ℂ, eval z (g.map (Int.castRingHom ℂ)) = 0 → z ∈ (g.map (Int.castRingHom ℂ)).roots := by
    intro z hz
    rw [mem_roots']
    exact ⟨(Polynomial.map_ne_zero_iff (Int.castRingHom ℂ).injective_int).2 hg.ne_zero, hz⟩
  rcases invRoots_irreducible hp hg hd hl with ⟨⟨k, hk, hgk⟩, h2⟩ | ⟨h1, h2⟩
  · left
    refine ⟨h2, fun z hz => ?_⟩
    rw [hgk, root_cycS] at hz
    haveI : NeZero ((k : ℂ)) := ⟨by exact_mod_cast hk.ne'⟩
    exact ⟨k, hk, (isRoot_cyclotomic_iff.1 (IsRoot.def.2 hz)).pow_eq_one⟩
  · right
    exact ⟨h2, fun z hz hu => h1 (eq_cycS hp hg hd hl hz hu)⟩

/-- `Φ_7(3T)` is an irreducible factor the search has to find. -/
example : Irreducible (cycS 3 7) ∧ (cycS 3 7).natDegree = 6 ∧ 0 < (cycS 3 7).leadingCoeff :=
  ⟨cycS_irreducible (by norm_num) (by norm_num), by rw [cycS_natDegree (by norm_num)]; decide, cycS_lead (by norm_num)⟩

/-! ### The whole function -/

theorem tableLoop_ok {cmp : Nat → Nat → Bool} {m K : ℕ} (hK : cmp K m = false) : ∀ (t k : ℕ), k ≤ K → K < k + t →
    ∃ N, tableLoop cmp m t k = some N ∧ k ≤ N ∧ cmp N m = false
  | 0, k, h1, h2 => by omega
  | t + 1, k, h1, h2 => by
    rw [tableLoop]
    by_cases hc : cmp k m = true
    · rw [if_pos hc]
      have hne : k ≠ K := fun h' => by rw [h', hK] at hc; cases hc
      obtain ⟨N, h3, h4, h5⟩ := tableLoop_ok hK t (k + 1) (by omega) (by omega)
      exact ⟨N, h3, by omega, h5⟩
    · rw [if_neg hc]
      exact ⟨k, rfl, le_refl _, by simpa using hc⟩

theorem foldl_maxDeg_le : ∀ (l : List (ℤ[X] × Nat)) (m : ℕ), m ≤ l.foldl (fun m g => max m g.1.natDegree) m ∧
    ∀ g ∈ l, g.1.natDegree ≤ l.foldl (fun m g => max m g.1.natDegree) m
  | [], m => ⟨le_refl _, fun g hg => by cases hg⟩
  | a :: l, m => by
    obtain ⟨h1, h2⟩ := foldl_maxDeg_le l (max m a.1.natDegree)
    refine ⟨le_trans (le_max_left _ _) h1, fun g hg => ?_⟩
    rcases List.mem_cons.1 hg with rfl | hg
    · exact le_trans (le_max_right _ _) h1
    · exact h2 g hg

theorem countLoop_ok {cmp : Nat → Nat → Bool} (hc : CmpOK cmp) {p : ℕ} (hp : 0 < p) {N K t : ℕ} {m : ℕ} (hK1 : 1 ≤ K)
    (hK : ∀ d, d ≤ m → cmp K d = false) (ht : K < t) (hN : ∀ d, d ≤ m → TableFor cmp N d) :
    ∀ (l : List (ℤ[X] × Nat)) (c : ℤ),
      (∀ g ∈ l, Irreducible g.1 ∧ 0 < g.1.natDegree ∧ 0 < g.1.leadingCoeff ∧ g.1.natDegree ≤ m) →
      countLoop cmp ((List.range N).map (fun i => cyclotomic i ℤ)) p t l c =
        .ok (some (c + ((l.map (fun g => g.2 * invRoots p g.1)).sum : ℕ)))
  | [], c, _ => by rw [countLoop]; simp
  | (g, e) :: l, c, h => by
    obtain ⟨h1, h2, h3, h4⟩ := h (g, e) (by simp)
    rw [countLoop, number_ok hc hp h1 h2 h3 (hN _ h4) hK1 (hK _ h4) ht, Res.bind_ok]
    simp only
    rw [countLoop_ok hc hp hK1 hK ht hN l _ (fun g' hg' => h g' (List.mem_cons_of_mem _ hg'))]
    congr 2
    rw [List.map_cons, List.sum_cons]
    push_cast
    ring

open Classical in
/-- The roots on the circle of radius `p` that are not `p` times a root of unity come in conjugate pairs. -/
theorem unitRoots_parity {P : ℤ[X]} {p : ℕ} (hp : 0 < p)
    (hnorm : ∀ z : ℂ, z ∈ (P.map (Int.castRingHom ℂ)).roots → ‖z‖ = p) :
    P.natDegree % 2 = unitRoots P p % 2 := by
  obtain ⟨R, hR⟩ : ∃ R, R = (P.map (Int.castRingHom ℂ)).roots := ⟨_, rfl⟩
  have hp' : (p : ℂ) ≠ 0 := by exact_mod_cast hp.ne'
  have hcard : R.card = P.natDegree := by
    rw [hR, IsAlgClosed.card_roots_eq_natDegree, natDegree_map_eq_of_injective (Int.castRingHom ℂ).injective_int]
  have hconj : R.map (starRingEnd ℂ) = R := by
    have h1 := (IsAlgClosed.splits (P.map (Int.castRingHom ℂ))).roots_map (starRingEnd ℂ)
    rw [← hR] at h1
    rw [← h1, Polynomial.map_map, hR]
    congr 1
    rw [show (starRingEnd ℂ).comp (Int.castRingHom ℂ) = Int.castRingHom ℂ from RingHom.ext_int _ _]
  have hrc : ∀ z : ℂ, IsRootOfUnity ((starRingEnd ℂ) z / p) ↔ IsRootOfUnity (z / p) := by
    intro z
    have key : ∀ w : ℂ, IsRootOfUnity (w / p) → IsRootOfUnity ((starRingEnd ℂ) w / p) := by
      rintro w ⟨m, hm, h⟩
      refine ⟨m, hm, ?_⟩
      have h2 := congrArg (starRingEnd ℂ) h
      rw [map_pow, map_div₀, map_natCast, map_one] at h2
      exact h2
    refine ⟨fun h => ?_, key z⟩
    have := key _ h
    rw [Complex.conj_conj] at this
    exact this
  -- real roots are `p` or `-p`
  have hreal : ∀ z ∈ R, z.im = 0 → IsRootOfUnity (z / p) := by
    intro z hz him
    have hn := hnorm z (hR ▸ hz)
    refine ⟨2, by norm_num, ?_⟩
    have hz2 : z = (z.re : ℂ) := Complex.ext (by simp) (by simp [him])
    rw [hz2, Complex.norm_real, Real.norm_eq_abs] at hn
    have h2 : z.re ^ 2 = (p : ℝ) ^ 2 := by rw [← sq_abs, hn]
    rw [div_pow, hz2, div_eq_one_iff_eq (pow_ne_zero _ hp')]
    exact_mod_cast h2
  have hsplit := Multiset.filter_add_not (fun z : ℂ => IsRootOfUnity (z / p)) R
  have h1 : (R.filter (fun z => ¬ IsRootOfUnity (z / p))) =
      R.filter (fun z => ¬ IsRootOfUnity (z / p) ∧ 0 < z.im) + R.filter (fun z => ¬ IsRootOfUnity (z / p) ∧ z.im < 0) := by
    rw [← Multiset.filter_add_not (fun z : ℂ => 0 < z.im) (R.filter (fun z => ¬ IsRootOfUnity (z / p))),
      Multiset.filter_filter, Multiset.filter_filter]
    congr 1
    · exact Multiset.filter_congr (fun z _ => And.comm)
    · refine Multiset.filter_congr (fun z hz => ?_)
      constructor
      · rintro ⟨h1, h2⟩
        refine ⟨h2, lt_of_le_of_ne (not_lt.1 h1) (fun h3 => h2 (hreal z hz h3))⟩
      · rintro ⟨h1, h2⟩
        exact ⟨by linarith, h1⟩
  have h2 : (R.filter (fun z => ¬ IsRootOfUnity (z / p) ∧ z.im < 0)).card =
      (R.filter (fun z => ¬ IsRootOfUnity (z / p) ∧ 0 < z.im)).card := by
    conv_lhs => rw [← hconj]
    rw [Multiset.filter_map, Multiset.card_map]
    congr 1
    refine Multiset.filter_congr (fun z _ => ?_)
    simp only [Function.comp, hrc, Complex.conj_im, neg_lt_zero]
  have h3 : unitRoots P p = (R.filter (fun z => IsRootOfUnity (z / p))).card := by rw [unitRoots, hR]
  have h4 := congrArg Multiset.card hsplit
  rw [Multiset.card_add, hcard, ← h3, h1, Multiset.card_add, h2] at h4
  omega

/-- **C43.**  For every integer polynomial (leading coefficient not 0) and every `p >= 1`, in dimension other
than 2, `geometric_picard` stops and returns the number of complex roots, with multiplicity, that are `p` times a
root of unity, plus 1 if the dimension is even.  No access to the table of cyclotomic polynomials is out of
bounds. -/
theorem C43_geometric_picard {cmp : Nat → Nat → Bool} (hc : CmpOK cmp) {factor : ℤ[X] → List (ℤ[X] × Nat)}
    (hf : FactorOK factor) (cp : List Int) (hlast : cp.getD (cp.length - 1) 0 ≠ 0) (p : ℕ) (hp : 0 < p) (dim : Int)
    (hdim : dim = 2 → ∀ z : ℂ, z ∈ ((polyOf cp).map (Int.castRingHom ℂ)).roots → ‖z‖ = p) :
    ∃ T, ∀ t, T ≤ t → geometricPicard cmp factor cp p dim t =
      .ok (some ((unitRoots (polyOf cp) p : ℤ) + if 2 ∣ dim then 1 else 0)) := by
  have hP0 : polyOf cp ≠ 0 := by
    intro h
    apply hlast
    rw [← polyOf_coeff, h, coeff_zero]
  have hrev := reversedPoly_eq hlast
  have hr0 : reversedPoly cp ≠ 0 := by rw [hrev, Ne, reverse_eq_zero]; exact hP0
  obtain ⟨fac, hfac⟩ : ∃ fac, fac = factor (reversedPoly cp) := ⟨_, rfl⟩
  obtain ⟨m, hm⟩ : ∃ m, m = fac.foldl (fun m g => max m g.1.natDegree) 0 := ⟨_, rfl⟩
  obtain ⟨K, hK1, hK⟩ := cmp_stops hc m
  refine ⟨K + 1, fun t ht => ?_⟩
  obtain ⟨N, eN, hN1, hN⟩ := tableLoop_ok hK t 1 hK1 (by omega)
  have hle : ∀ k, cmp k m = false → ∀ d, d ≤ m → cmp k d = false := by
    intro k hk d hd
    by_contra h
    have := hc.mono k d m hd (by simpa using h)
    rw [hk] at this; cases this
  have hcount := countLoop_ok hc hp (t := t) hK1 (hle K hK) (by omega) (N := N) (fun d hd k hk hall => by
      by_contra hlt
      have := hall N hN1 (by omega)
      rw [hle N hN d hd] at this; cases this) fac 0 (fun g hg => by
      obtain ⟨h1, h2, h3⟩ := hf.irred _ g (hfac ▸ hg)
      exact ⟨h1, h2, h3, hm ▸ (foldl_maxDeg_le fac 0).2 g hg⟩)
  obtain ⟨c, hprod⟩ := hf.prod _ hr0
  rw [← hfac] at hprod
  have hsum : (fac.map (fun g => g.2 * invRoots p g.1)).sum = unitRoots (polyOf cp) p := by
    rw [← invRoots_prod fac c (hprod ▸ hr0), ← hprod, hrev, invRoots_reverse]
  rw [hsum, zero_add] at hcount
  rw [geometricPicard]
  simp only
  rw [← hfac, ← hm, eN]
  simp only
  rw [hcount, Res.bind_ok]
  simp only
  have hmod : (dim.tmod 2 = 0) ↔ 2 ∣ dim := by
    rw [Int.dvd_iff_tmod_eq_zero]
  have hassert : (decide (dim ≠ 2) || decide ((cp.length : Int).tmod 2 =
      (if dim.tmod 2 = 0 then (unitRoots (polyOf cp) p : ℤ) + 1 else (unitRoots (polyOf cp) p : ℤ)).tmod 2)) = true := by
    by_cases h2 : dim = 2
    · subst h2
      rw [Bool.or_eq_true]
      right
      have hpar := unitRoots_parity hp (hdim rfl)
      rw [polyOf_natDegree hlast] at hpar
      have hlen : 0 < cp.length := by
        rcases cp with _ | ⟨a, cp⟩
        · exact absurd rfl hlast
        · simp
      rw [decide_eq_true_eq, if_pos (by decide), Int.tmod_eq_emod_of_nonneg (by positivity), Int.tmod_eq_emod_of_nonneg (by positivity)]
      omega
    · simp [h2]
  rw [hassert, check_true, Res.bind_ok]
  congr 2
  by_cases h : 2 ∣ dim
  · rw [if_pos (hmod.2 h), if_pos h]
  · rw [if_neg (fun h' => h (hmod.1 h')), if_neg h, add_zero]

/-! ### The contracts can be met -/

open Classical in
theorem exists_cmp : ∃ cmp, CmpOK cmp := by
  refine ⟨fun k d => decide ((k : ℝ) ≤ d * (Real.logb 2 k + 1)), ⟨fun d => ?_, fun d => ?_, fun k d hk h => ?_,
    fun k d hk h => ?_, fun k d d' hd h => ?_⟩⟩
  · simp
  · rw [decide_eq_true_eq]
    push_cast
    rw [Real.logb_self_eq_one (by norm_num)]
    constructor
    · intro h
      have : (0 : ℝ) < d := by nlinarith
      exact_mod_cast this
    · intro h
      have : (1 : ℝ) ≤ d := by exact_mod_cast h
      linarith
  · rw [decide_eq_true_eq]
    have : (0 : ℝ) ≤ k := by positivity
    linarith
  · rw [decide_eq_false_iff_not, not_le]
    have : (3 : ℝ) ≤ k := by exact_mod_cast hk
    linarith
  · rw [decide_eq_true_eq] at h ⊢
    refine h.trans ?_
    rcases Nat.eq_zero_or_pos k with rfl | hk
    · simp only [Nat.cast_zero, Real.logb_zero, zero_add, mul_one]
      exact_mod_cast hd
    · have : 0 ≤ Real.logb 2 k := Real.logb_nonneg (by norm_num) (by exact_mod_cast hk)
      have : (d : ℝ) ≤ d' := by exact_mod_cast hd
      nlinarith

theorem exists_factor : ∃ factor, FactorOK factor := by
  classical
  have key : ∀ f : ℤ[X], f ≠ 0 → ∃ l : List (ℤ[X] × Nat), (∃ c : ℤ, f = C c * (l.map (fun g => g.1 ^ g.2)).prod) ∧
      ∀ g ∈ l, Irreducible g.1 ∧ 0 < g.1.natDegree ∧ 0 < g.1.leadingCoeff := by
    intro f
    refine WfDvdMonoid.induction_on_irreducible f (fun h => absurd rfl h) ?_ ?_
    · intro u hu _
      obtain ⟨c, -, rfl⟩ := Polynomial.isUnit_iff.1 hu
      exact ⟨[], ⟨c, by simp⟩, fun g hg => by cases hg⟩
    · intro a i ha hi ih _
      obtain ⟨l, ⟨c, hc⟩, hl⟩ := ih ha
      rcases Nat.eq_zero_or_pos i.natDegree with h0 | h0
      · rw [eq_C_of_natDegree_eq_zero h0]
        refine ⟨l, ⟨i.coeff 0 * c, ?_⟩, hl⟩
        rw [C_mul, hc]; ring
      · rcases lt_trichotomy i.leadingCoeff 0 with h1 | h1 | h1
        · refine ⟨(-i, 1) :: l, ⟨-c, ?_⟩, fun g hg => ?_⟩
          · rw [List.map_cons, List.prod_cons, C_neg, pow_one]
            conv_lhs => rw [hc]
            ring
          · rcases List.mem_cons.1 hg with rfl | hg
            · refine ⟨(Associated.neg_left (Associated.refl i)).irreducible_iff.2 hi, ?_, ?_⟩
              · simpa using h0
              · simpa using h1
            · exact hl g hg
        · exact absurd (leadingCoeff_eq_zero.1 h1) hi.ne_zero
        · refine ⟨(i, 1) :: l, ⟨c, ?_⟩, fun g hg => ?_⟩
          · rw [List.map_cons, List.prod_cons, pow_one]
            conv_lhs => rw [hc]
            ring
          · rcases List.mem_cons.1 hg with rfl | hg
            · exact ⟨hi, h0, h1⟩
            · exact hl g hg
  refine ⟨fun f => if h : f ≠ 0 then (key f h).choose else [], ⟨fun f h => ?_, fun f g hg => ?_⟩⟩
  · rw [dif_pos h]
    exact (key f h).choose_spec.1
  · split at hg
    · next h => exact (key f h).choose_spec.2 g hg
    · cases hg

theorem polyOf_linear (a : ℤ) : polyOf [-a, 1] = X - C a := by
  rw [polyOf, List.length_cons, List.length_cons, List.length_nil, Finset.sum_range_succ, Finset.sum_range_one]
  simp
  ring

/-- `T - 3` over `F_3` counts, `T - 1` does not. -/
example : ∃ cmp factor, CmpOK cmp ∧ FactorOK factor ∧
    (∃ T, ∀ t, T ≤ t → geometricPicard cmp factor [-3, 1] 3 2 t = .ok (some 2)) ∧
    (∃ T, ∀ t, T ≤ t → geometricPicard cmp factor [-1, 1] 3 1 t = .ok (some 0)) := by
  classical
  obtain ⟨cmp, hc⟩ := exists_cmp
  obtain ⟨factor, hf⟩ := exists_factor
  have hroots : ∀ a : ℤ, ((polyOf [-a, 1]).map (Int.castRingHom ℂ)).roots = {(a : ℂ)} := by
    intro a
    rw [polyOf_linear, Polynomial.map_sub, map_X, map_C, roots_X_sub_C]
    rfl
  refine ⟨cmp, factor, hc, hf, ?_, ?_⟩
  · obtain ⟨T, hT⟩ := C43_geometric_picard hc hf [-3, 1] (by decide) 3 (by norm_num) 2 (fun _ z hz => by
      rw [hroots 3, Multiset.mem_singleton] at hz
      rw [hz]; simp)
    refine ⟨T, fun t ht => ?_⟩
    have hu : unitRoots (polyOf [-3, 1]) 3 = 1 := by
      rw [unitRoots, hroots 3, Multiset.filter_singleton, if_pos, Multiset.card_singleton]
      exact ⟨1, by norm_num, by norm_num⟩
    rw [hT t ht, hu]
    rfl
  · obtain ⟨T, hT⟩ := C43_geometric_picard hc hf [-1, 1] (by decide) 3 (by norm_num) 1 (fun h => by cases h)
    refine ⟨T, fun t ht => ?_⟩
    have hu : unitRoots (polyOf [-1, 1]) 3 = 0 := by
      rw [unitRoots, hroots 1, Multiset.filter_singleton, if_neg]
      · rfl
      · rintro ⟨m, hm, h⟩
        have := congrArg norm h
        rw [norm_pow, norm_one] at this
        have h3 : ‖((1 : ℤ) : ℂ) / ((3 : ℕ) : ℂ)‖ < 1 := by norm_num
        exact absurd this (pow_lt_one₀ (norm_nonneg _) h3 hm.ne').ne
    rw [hT t ht, hu]
    rfl

end Verif
