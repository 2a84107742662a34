import Verif.Lemmas.TestPrograms
import Verif.Spec.TestPrograms

/-!
C73: what the test programs can tell.
-/

namespace Verif

open Verif.Spec MvPolynomial

/-! ### The programs that test the reductions -/

section

variable (P : ℕ → ℕ) [hP : ∀ i, Fact (P i).Prime] (la : ∀ i, LinAlg (ZMod (P i))) (flint : Bool)
  (zz : ∀ i, ℕ → ℕ → ℕ → ZMod (P i)) (rnd : ℕ → ℕ → ℕ → ℕ → ℕ)

/-- The four programs; `P i` is the prime of round `i`, `zz i n d` are the elements drawn by the constructor and `rnd i n d` the
numbers drawn by the test. -/
def runPathsJ (t : ℕ) : Res (Option Unit) :=
  tenRounds degreeBound (fun i n d => pathsTestJ (la i) flint (zz i n d) (rnd i n d) t n d)

def runPathsND (t : ℕ) : Res (Option Unit) :=
  tenRounds degreeBound (fun i n d => pathsTestND (la i) flint (zz i n d) (rnd i n d) t n d)

def runBasisJ (t : ℕ) : Res (Option Unit) := tenRounds degreeBound (fun i n d => basisTestJ (la i) flint (zz i n d) t n d)

def runBasisND (t : ℕ) : Res (Option Unit) := tenRounds degreeBoundSkip (fun i n d => basisTestND (la i) flint (zz i n d) t n d)

/-- **C73 (the reductions never fail their tests).**  For all primes from 43 on, all random numbers and every bound `t` on the random
searches: `test_paths_J`, `test_paths_ND`, `test_monomial_to_basis_J` and `test_monomial_to_basis_ND` do not report FAIL, no assertion
fails and nothing undefined is computed; they end with PASS or a random search is still running. -/
theorem C73_reductions_pass (h43 : ∀ i, 43 ≤ P i) (hla : ∀ i, LinAlgOK (la i)) (t : ℕ) :
    (runPathsJ P la flint zz rnd t = .ok none ∨ runPathsJ P la flint zz rnd t = .ok (some ())) ∧
    (runPathsND P la flint zz rnd t = .ok none ∨ runPathsND P la flint zz rnd t = .ok (some ())) ∧
    (runBasisJ P la flint zz t = .ok none ∨ runBasisJ P la flint zz t = .ok (some ())) ∧
    (runBasisND P la flint zz t = .ok none ∨ runBasisND P la flint zz t = .ok (some ())) := by
  have hlt : ∀ i n d, InRange n d → d < P i := by
    intro i n d hr
    have := (inRange_facts hr).2.2.2.2.1
    have := h43 i
    omega
  refine ⟨?_, ?_, ?_, ?_⟩
  · exact tenRounds_fine degreeBound_ok (fun i _ n d hr => pathsTestJ_fine (la i) (hla i) flint _ _ t hr (hlt i n d hr))
  · exact tenRounds_fine degreeBound_ok (fun i _ n d hr => pathsTestND_fine (la i) (hla i) flint _ _ t hr (hlt i n d hr))
  · refine tenRounds_fine degreeBound_ok (fun i _ n d hr => ?_)
    rcases basisTestJ_cases (la i) (hla i) flint (zz i n d) t hr (hlt i n d hr) with ⟨h, -⟩ | h
    · exact Or.inl h
    · exact Or.inr h
  · refine tenRounds_fine degreeBoundSkip_ok (fun i _ n d hr => ?_)
    rcases basisTestND_cases (la i) (hla i) flint (zz i n d) t hr (hlt i n d hr) with ⟨h, -⟩ | h
    · exact Or.inl h
    · exact Or.inr h

/-- What holds for each of the finitely many tests from some bound on holds for all of them from some bound on. -/
theorem eventually_all_tests {Q : ℕ → ℕ → ℕ → ℕ → Prop} (h : ∀ i < 10, ∀ n d, InRange n d → ∀ᶠ t in Filter.atTop, Q i n d t) :
    ∀ᶠ t in Filter.atTop, ∀ i < 10, ∀ n d, InRange n d → Q i n d t := by
  have h1 : ∀ᶠ t in Filter.atTop, ∀ x ∈ Finset.range 10 ×ˢ (Finset.range 4 ×ˢ Finset.range 6), InRange x.2.1 x.2.2 →
      Q x.1 x.2.1 x.2.2 t := by
    rw [Filter.eventually_all_finset]
    rintro ⟨i, n, d⟩ hx
    simp only [Finset.mem_product, Finset.mem_range] at hx
    by_cases hr : InRange n d
    · filter_upwards [h i hx.1 n d hr] with t ht _
      exact ht
    · exact Filter.Eventually.of_forall (fun t hr' => absurd hr' hr)
  filter_upwards [h1] with t ht i hi n d hr
  have := inRange_facts hr
  exact ht (i, n, d) (by simp only [Finset.mem_product, Finset.mem_range]; omega) hr

/-- **C73 (the programs end).**  If the constructors meet a polynomial without a singular point (a non-degenerate one for the last two)
among the ones they draw and, for the tests of the paths, every coordinate is drawn again and again, then the programs end with
PASS. -/
theorem C73_reductions_end (h43 : ∀ i, 43 ≤ P i) (hla : ∀ i, LinAlgOK (la i))
    (hfair : ∀ i < 10, ∀ n d, ∀ k < n + 1, ∀ pos, ∃ j, pos ≤ j ∧ rnd i n d j % (n + 1) = k) :
    ((∀ i < 10, ∀ n d, InRange n d → ∃ j, NoCommonZero.{0} (fun x => pderiv x (toPoly (n + 1) (Drawn (zz i n d) n d j)))) →
      ∃ t0, ∀ t, t0 ≤ t → runPathsJ P la flint zz rnd t = .ok (some ()) ∧ runBasisJ P la flint zz t = .ok (some ())) ∧
    ((∀ i < 10, ∀ n d, InRange n d → ∃ j, NoCommonZero.{0} (fun x => X x * pderiv x (toPoly (n + 1) (Drawn (zz i n d) n d j)))) →
      ∃ t0, ∀ t, t0 ≤ t → runPathsND P la flint zz rnd t = .ok (some ()) ∧ runBasisND P la flint zz t = .ok (some ())) := by
  have hlt : ∀ i n d, InRange n d → d < P i := by
    intro i n d hr
    have := (inRange_facts hr).2.2.2.2.1
    have := h43 i
    omega
  constructor
  · intro hs
    have h1 := eventually_all_tests (Q := fun i n d t => pathsTestJ (la i) flint (zz i n d) (rnd i n d) t n d = .ok (some true))
      (fun i hi n d hr => by
        obtain ⟨j, hj⟩ := hs i hi n d hr
        exact pathsTestJ_ends (la i) (hla i) flint _ _ hr (hlt i n d hr) hj (hfair i hi n d))
    have h2 := eventually_all_tests (Q := fun i n d t => basisTestJ (la i) flint (zz i n d) t n d = .ok (some true))
      (fun i hi n d hr => by
        obtain ⟨j, hj⟩ := hs i hi n d hr
        filter_upwards [Filter.eventually_ge_atTop (j + 1)] with t ht
        rcases basisTestJ_cases (la i) (hla i) flint (zz i n d) t hr (hlt i n d hr) with ⟨-, h⟩ | h
        · exact absurd hj (h j (by omega))
        · exact h)
    obtain ⟨t0, ht⟩ := Filter.eventually_atTop.1 (h1.and h2)
    exact ⟨t0, fun t h => ⟨tenRounds_pass degreeBound_ok (ht t h).1, tenRounds_pass degreeBound_ok (ht t h).2⟩⟩
  · intro hs
    have h1 := eventually_all_tests (Q := fun i n d t => pathsTestND (la i) flint (zz i n d) (rnd i n d) t n d = .ok (some true))
      (fun i hi n d hr => by
        obtain ⟨j, hj⟩ := hs i hi n d hr
        exact pathsTestND_ends (la i) (hla i) flint _ _ hr (hlt i n d hr) hj (hfair i hi n d))
    have h2 := eventually_all_tests (Q := fun i n d t => basisTestND (la i) flint (zz i n d) t n d = .ok (some true))
      (fun i hi n d hr => by
        obtain ⟨j, hj⟩ := hs i hi n d hr
        filter_upwards [Filter.eventually_ge_atTop (j + 1)] with t ht
        rcases basisTestND_cases (la i) (hla i) flint (zz i n d) t hr (hlt i n d hr) with ⟨-, h⟩ | h
        · exact absurd hj (h j (by omega))
        · exact h)
    obtain ⟨t0, ht⟩ := Filter.eventually_atTop.1 (h1.and h2)
    exact ⟨t0, fun t h => ⟨tenRounds_pass degreeBound_ok (ht t h).1, tenRounds_pass degreeBoundSkip_ok (ht t h).2⟩⟩

/-- **C73 (the programs detect failures).**  A test that returns `false` in the range of the loops, after passes which return `true`,
stops the program: PASS means that every one of the tests returned `true`. -/
theorem C73_pass_means {bound : ℕ → ℕ → ℕ} {test : ℕ → ℕ → ℕ → Res (Option Bool)} (h : tenRounds bound test = .ok (some ())) :
    ∀ i < 10, ∀ n, n = 2 ∨ n = 3 → ∀ d, n < d → d ≤ bound i n → test i n d = .ok (some true) := by
  have hin : ∀ (test : ℕ → Res (Option Bool)) (c i : ℕ), testLoop test c i = .ok (some ()) → ∀ k, i ≤ k → k < i + c →
      test k = .ok (some true) := by
    intro test c
    induction c with
    | zero => intro i _ k h1 h2; omega
    | succ c ih =>
      intro i h k h1 h2
      unfold testLoop at h
      rw [Res.bind_eq_ok] at h
      obtain ⟨b, hb, h⟩ := h
      rcases b with _ | _ | _
      · cases h
      · cases h
      · rcases Nat.lt_or_ge i k with hlt | hge
        · exact ih (i + 1) h k (by omega) (by omega)
        · rw [show k = i by omega]; exact hb
  have hout : ∀ (body : ℕ → Res (Option Unit)) (c i : ℕ), outerLoop body c i = .ok (some ()) → ∀ k, i ≤ k → k < i + c →
      body k = .ok (some ()) := by
    intro body c
    induction c with
    | zero => intro i _ k h1 h2; omega
    | succ c ih =>
      intro i h k h1 h2
      unfold outerLoop at h
      rw [Res.bind_eq_ok] at h
      obtain ⟨b, hb, h⟩ := h
      rcases b with _ | _
      · cases h
      · rcases Nat.lt_or_ge i k with hlt | hge
        · exact ih (i + 1) h k (by omega) (by omega)
        · rw [show k = i by omega]; exact hb
  intro i hi n hn d h1 h2
  have a1 := hout _ 10 0 h i (by omega) (by omega)
  have a2 := hout _ 2 2 a1 n (by omega) (by omega)
  exact hin _ _ _ a2 d (by omega) (by omega)

/-- **C73 (what the programs cover).**  Three of the programs print PASS exactly if for all ten primes every test for curves of degree 3, 4
and 5 and for quartic surfaces returns `true`; the fourth, `test_monomial_to_basis_ND`, tests surfaces only for the first, the fifth and
the ninth prime. -/
theorem C73_covered (test : ℕ → ℕ → ℕ → Res (Option Bool)) :
    (tenRounds degreeBound test = .ok (some ()) ↔ ∀ i < 10, ∀ n d, (n = 2 ∧ d ∈ [3, 4, 5]) ∨ (n = 3 ∧ d = 4) →
      test i n d = .ok (some true)) ∧
    (tenRounds degreeBoundSkip test = .ok (some ()) ↔ ∀ i < 10, ∀ n d, (n = 2 ∧ d ∈ [3, 4, 5]) ∨
      (n = 3 ∧ d = 4 ∧ i ∈ [0, 4, 8]) → test i n d = .ok (some true)) := by
  refine ⟨⟨fun h i hi n d hr => ?_, fun h => ?_⟩, ⟨fun h i hi n d hr => ?_, fun h => ?_⟩⟩
  · simp only [List.mem_cons, List.not_mem_nil, or_false] at hr
    exact C73_pass_means h i hi n (by omega) d (by omega) (by unfold degreeBound; split <;> omega)
  · unfold tenRounds
    refine outerLoop_pass 10 0 (fun i _ hi => outerLoop_pass 2 2 (fun n h1 h2 => testLoop_pass _ _ (fun d h3 h4 => ?_)))
    refine h i (by omega) n d ?_
    simp only [List.mem_cons, List.not_mem_nil, or_false]
    unfold degreeBound at h4
    split at h4 <;> omega
  · simp only [List.mem_cons, List.not_mem_nil, or_false] at hr
    exact C73_pass_means h i hi n (by omega) d (by omega) (by unfold degreeBoundSkip; split <;> [split; skip] <;> omega)
  · unfold tenRounds
    refine outerLoop_pass 10 0 (fun i _ hi => outerLoop_pass 2 2 (fun n h1 h2 => testLoop_pass _ _ (fun d h3 h4 => ?_)))
    refine h i (by omega) n d ?_
    simp only [List.mem_cons, List.not_mem_nil, or_false]
    unfold degreeBoundSkip at h4
    split at h4
    · split at h4 <;> omega
    · omega

end

/-- Programs with tests that all return `true`, and with one that does not. -/
example : tenRounds degreeBound (fun _ _ _ => .ok (some true)) = .ok (some ()) ∧
    tenRounds degreeBound (fun i n d => .ok (some (decide ((i, n, d) ≠ (9, 3, 4))))) = .error .abort ∧
    tenRounds degreeBoundSkip (fun i n d => .ok (some (decide ((i, n, d) ≠ (9, 3, 4))))) = .ok (some ()) := by
  decide +kernel

/-- Primes, eliminations and random numbers which meet the hypotheses of `C73_reductions_pass`. -/
example : ∃ (P : ℕ → ℕ) (_ : ∀ i, Fact (P i).Prime) (la : ∀ i, LinAlg (ZMod (P i))), (∀ i, 43 ≤ P i) ∧ (∀ i, LinAlgOK (la i)) ∧
    ∀ i < 10, ∀ n d : ℕ, ∀ k < n + 1, ∀ pos, ∃ j, pos ≤ j ∧ (fun _ _ _ j => j : ℕ → ℕ → ℕ → ℕ → ℕ) i n d j % (n + 1) = k := by
  have hp : Fact (Nat.Prime 43) := ⟨by norm_num⟩
  obtain ⟨la, hla⟩ := exists_linAlg (ZMod 43)
  refine ⟨fun _ => 43, fun _ => hp, fun _ => la, fun _ => le_rfl, fun _ => hla, fun i _ n d k hk pos => ?_⟩
  refine ⟨(n + 1) * pos + k, ?_, ?_⟩
  · have : pos ≤ (n + 1) * pos := Nat.le_mul_of_pos_left _ (by omega)
    omega
  · show ((n + 1) * pos + k) % (n + 1) = k
    rw [Nat.mul_add_mod, Nat.mod_eq_of_lt hk]

/-- Every form can be the first one drawn. -/
theorem exists_drawn {p : ℕ} [Fact p.Prime] {n d : ℕ} {Q : MvPolynomial (Fin (n + 1)) (ZMod p)} (hQ : Q.IsHomogeneous d) :
    ∃ zz : ℕ → ZMod p, toPoly (n + 1) (Drawn zz n d 0) = Q := by
  have hL := comps_isTable n d
  let zz : ℕ → ZMod p := fun k => coeff (expo (n + 1) ((comps n d).getD k [])) Q
  obtain ⟨h1, h2⟩ := table_wf hL ((List.range (comps n d).length).map (fun i => zz (0 * (comps n d).length + i))) (by simp)
  refine ⟨zz, ?_⟩
  have hhom := toPoly_isHomogeneous (Drawn zz n d 0) h1.1 h2
  rw [← combo_coeff hL hhom, ← combo_coeff hL hQ]
  refine combo_congr (fun i hi => ?_)
  have ht := hL.tuple hi
  have hc : coeff (expo (n + 1) ((comps n d).getD i [])) (toPoly (n + 1) (Drawn zz n d 0)) = zz i := by
    rw [coeff_toPoly (m := Drawn zz n d 0) h1 ht.1 ht.2.1, MonMap.get, find?_of_mem_nodup (e := ((comps n d).getD i [], zz i))]
    · rfl
    · rw [Drawn, List.map_fst_zip (by simp)]; exact LexLt_pairwise_nodup hL.1
    · rw [getD_getElem _ _ _ hi, List.mem_iff_getElem]
      exact ⟨i, by simp only [Drawn, List.length_zip, List.length_map, List.length_range, min_self]; exact hi, by
        simp [Drawn]⟩
  exact hc

/-- The hypotheses of `C73_reductions_end` can be met: the Fermat forms may be drawn. -/
example {p : ℕ} [Fact p.Prime] (h43 : 43 ≤ p) {n d : ℕ} (hr : InRange n d) : ∃ zz : ℕ → ZMod p, ∃ j,
    NoCommonZero.{0} (fun x => X x * pderiv x (toPoly (n + 1) (Drawn zz n d j))) ∧
    NoCommonZero.{0} (fun x => pderiv x (toPoly (n + 1) (Drawn zz n d j))) := by
  obtain ⟨h1, h2, h3, h4, h5, -⟩ := inRange_facts hr
  have hhom : (∑ i : Fin (n + 1), (X i : MvPolynomial (Fin (n + 1)) (ZMod p)) ^ d).IsHomogeneous d := by
    refine IsHomogeneous.sum _ _ _ (fun i _ => ?_)
    have := (isHomogeneous_X (ZMod p) i).pow d
    rwa [one_mul] at this
  obtain ⟨zz, hzz⟩ := exists_drawn hhom
  have hpd : ∀ x, pderiv x (∑ i : Fin (n + 1), (X i : MvPolynomial (Fin (n + 1)) (ZMod p)) ^ d) = (d : MvPolynomial _ _) * X x ^ (d - 1) := by
    intro x
    rw [map_sum, Finset.sum_eq_single x]
    · rw [pderiv_pow, pderiv_X_self, mul_one]
    · intro i _ hi
      rw [pderiv_pow, pderiv_X_of_ne hi, mul_zero]
    · simp
  have hdz : ∀ (K : Type) [Field K] [Algebra (ZMod p) K], (d : K) ≠ 0 := by
    intro K _ _ h
    have h' : algebraMap (ZMod p) K (d : ZMod p) = 0 := by rw [map_natCast]; exact h
    rw [map_eq_zero, ZMod.natCast_eq_zero_iff] at h'
    exact not_dvd_of_lt (by omega) (by omega) h'
  have hA : NoCommonZero.{0} (fun x => X x * pderiv x (toPoly (n + 1) (Drawn zz n d 0))) := by
    intro K _ _ x hx
    funext i
    have := hx i
    beta_reduce at this
    rw [hzz, hpd] at this
    simp only [map_mul, map_pow, aeval_X, map_natCast, mul_eq_zero, pow_eq_zero_iff', hdz K, false_or] at this
    rcases this with h | h
    · exact h
    · exact h.1
  refine ⟨zz, 0, hA, fun K _ _ x hx => hA K x (fun i => ?_)⟩
  have := hx i
  beta_reduce at this ⊢
  rw [map_mul, this, mul_zero]

/-! ### The tests of the invariance under changes of variables -/

/-- **C73 (invariance: the second object is not used).**  The two programs compute the second matrix from the first object again.
Whatever the routine, whatever the objects: the result is the same for any two objects in the place of the second one, and if a
second run on the first object gives the same polynomial as the first run, FAIL is never reported. -/
theorem C73_invariance_wrong {Obj S M : Type} (frob : Obj → S → Res (M × S)) (cpf : M → Res (List Int)) (hs : Obj) (s : S) :
    (∀ hs2 hs2', invarianceTest frob cpf hs s (.ok (some hs2)) = invarianceTest frob cpf hs s (.ok (some hs2'))) ∧
    ((∀ r r2, frob hs s = .ok r → frob hs r.2 = .ok r2 → cpf r2.1 = cpf r.1) →
      ∀ second b, invarianceTest frob cpf hs s second = .ok (some b) → b = true) := by
  refine ⟨fun _ _ => rfl, fun h second b hb => ?_⟩
  unfold invarianceTest at hb
  simp only [Res.bind_eq_ok] at hb
  obtain ⟨r, h1, cp, h2, o, h3, hb⟩ := hb
  cases o with
  | none => cases hb
  | some o =>
    simp only [Res.bind_eq_ok] at hb
    obtain ⟨r2, h4, cp2, h5, hb⟩ := hb
    rw [h r r2 h1 h4, h2] at h5
    obtain rfl := Except.ok.inj h5
    have := Option.some.inj (Except.ok.inj hb)
    rw [← this]
    exact decide_eq_true rfl

/-- A routine which is not invariant: two objects with the polynomials `T - 1` and `T - 2`; the test passes. -/
example : invarianceTest (Obj := Bool) (S := Unit) (fun b s => .ok (b, s)) (fun b => .ok (if b then [-1, 1] else [-2, 1]))
    true () (.ok (some false)) = .ok (some true) ∧
    (fun b : Bool => if b then [-1, 1] else [-2, 1]) true ≠ (fun b : Bool => if b then ([-1, 1] : List Int) else [-2, 1]) false := by
  constructor <;> decide +kernel

section

variable {p : ℕ} [hprime : Fact p.Prime] {n d : ℕ} (la : LinAlg (ZMod p)) (hla : LinAlgOK la) (rd : RankDet (ZMod p)) (flint pre : Bool)
  (order : ℕ → List ℕ) (ho : ∀ b, (order b).Perm (List.range b)) (zz : ℕ → ZMod p) (rnd rnd' : Rnd (ZMod p)) (t : ℕ)

/-- The facts about the arguments in the range of the two programs. -/
theorem invariance_args (hmem : ((n : ℤ), (d : ℤ)) ∈ defaultPairs) (hp : d < p) :
    ∃ a, defaultArgs p n d = .ok a ∧ 1 ≤ a.precision.toNat ∧ 1 ≤ n ∧ 2 ≤ d ∧ n < d ∧
      ∀ l ≤ (n + 1) * d, (l + n).choose n < 2 ^ 63 := by
  obtain ⟨a, ha⟩ := (C12_domain p n d).1 hmem
  obtain ⟨hd, hsize⟩ := size_default ha
  have : 2 ≤ n ∧ n < d := by
    simp only [defaultPairs, List.mem_cons, Prod.mk.injEq, List.not_mem_nil, or_false] at hmem
    omega
  have h2 := (C12_default_args_partial p (by omega) n d a ha).1
  exact ⟨a, ha, by omega, by omega, hd, this.2, hsize⟩

theorem trimMat_congr {R : Type} [Zero R] {A B : CMat R} (hr : A.rows = B.rows) (hc : A.cols = B.cols)
    (h : ∀ k i, i < B.cols → A.e k i = B.e k i) : trimMat A = trimMat B := by
  unfold trimMat CMat.mk'
  rw [hr, hc]
  congr 1
  funext k i
  split
  · rename_i hki
    exact h k i hki.2
  · rfl

include hla ho

/-- **C73 (invariance, J).**  `test_invariance_J` never reports FAIL: for every `(n, d)` in the table of the precisions, every
prime `p > d`, all random numbers, every order of the parallel loop: if it ends, it ends with PASS.  (Because the second matrix is
that of the first object, see `C73_invariance_wrong`, this says nothing about changes of variables.) -/
theorem C73_invariance_J (hmem : ((n : ℤ), (d : ℤ)) ∈ defaultPairs) (hp : d < p) (b : Bool)
    (h : invarianceJ la rd flint pre order zz rnd t n d = .ok (some b)) : b = true := by
  obtain ⟨a, ha, hK, hn, hd, hnd, hsize⟩ := invariance_args hmem hp
  unfold invarianceJ at h
  rw [ha, Res.bind_ok, Res.bind_eq_ok] at h
  obtain ⟨o, h1, h2⟩ := h
  cases o with
  | none => cases h2
  | some D =>
    rcases random_cases hK hla flint hsize hd hnd (not_dvd_of_lt (by omega) hp) zz t with ⟨h3, -⟩ | ⟨j, D', -, -, h3, -, hC⟩
    · have h3' := h3.symm.trans h1
      cases h3'
    · have h3' := h3.symm.trans h1
      obtain rfl := Option.some.inj (Except.ok.inj h3')
      haveI : Fact (1 < p ^ a.precision.toNat) := ⟨Nat.one_lt_pow (by omega) hprime.out.one_lt⟩
      have hhigh : ∀ b Ni, b ∈ D'.basis → a.N[poleOrder n d b - 1]? = some Ni → 0 < Ni →
          n / p ≤ poleOrder n d b + Ni.toNat - 1 := by
        intro b Ni _ _ _
        rw [Nat.div_eq_of_lt (by omega)]
        exact Nat.zero_le _
      have hT : Reached n (naiveLift (p ^ a.precision.toNat) (Drawn zz n d j)) (fpowStart D'.n) := by
        obtain ⟨e, -⟩ := hC.init
        rw [e]
        exact reached_start n _
      refine (C73_invariance_wrong _ _ _ _).2 ?_ _ b h2
      intro r r2 hr hr2
      have hcol := (C33_columns (p := p) hC hn hT pre (ho D'.basis.length) a.N hhigh).1 r hr
      obtain ⟨r', hr', e1, e2, e3⟩ := C33_threads (p := p) hC hn hT hcol.2.2.1 pre pre (ho D'.basis.length) (ho D'.basis.length)
        a.N hhigh r hr
      have hr2' := hr'.symm.trans hr2
      obtain rfl := Except.ok.inj hr2'
      rw [trimMat_congr e1 e2 (fun k i hi => e3 k i (by rw [← hcol.2.1]; exact hi))]

/-- **C73 (invariance, ND).**  The same for `test_invariance_ND`. -/
theorem C73_invariance_ND (hmem : ((n : ℤ), (d : ℤ)) ∈ defaultPairs) (hp : d < p) (b : Bool)
    (h : invarianceND la rd flint pre order zz rnd rnd' t n d = .ok (some b)) : b = true := by
  obtain ⟨a, ha, hK, hn, hd, hnd, hsize⟩ := invariance_args hmem hp
  unfold invarianceND at h
  rw [ha, Res.bind_ok, Res.bind_eq_ok] at h
  obtain ⟨o, h1, h2⟩ := h
  cases o with
  | none => cases h2
  | some D =>
    rcases random_cases_ND hK hla flint hsize hd hnd (not_dvd_of_lt (by omega) hp) zz t with ⟨h3, -⟩ | ⟨j, D', -, -, h3, -, hC⟩
    · have h3' := h3.symm.trans h1
      cases h3'
    · have h3' := h3.symm.trans h1
      obtain rfl := Option.some.inj (Except.ok.inj h3')
      have hT : Reached n (naiveLift (p ^ a.precision.toNat) (Drawn zz n d j)) (fpowStart D'.n) := by
        obtain ⟨e, -⟩ := hC.init
        rw [e]
        exact reached_start n _
      refine (C73_invariance_wrong _ _ _ _).2 ?_ _ b h2
      intro r r2 hr hr2
      have hcol := (C51_columns (p := p) hC hn hT pre (ho D'.basis.length) a.N).1 r hr
      obtain ⟨r', hr', e1, e2, e3⟩ := C51_threads (p := p) hC hn hT hcol.2.2.1 pre pre (ho D'.basis.length) (ho D'.basis.length)
        a.N r hr
      have hr2' := hr'.symm.trans hr2
      obtain rfl := Except.ok.inj hr2'
      rw [trimMat_congr e1 e2 (fun k i hi => e3 k i (by rw [← hcol.2.1]; exact hi))]

end

/-- The degrees of `test_invariance_J` and the primes it draws are in the range. -/
example : (∀ d : ℕ, 3 ≤ d → d ≤ 5 → (((2 : ℕ) : ℤ), (d : ℤ)) ∈ defaultPairs) ∧ (3 : ℕ) < 5 ∧ Nat.Prime 5 := by
  refine ⟨fun d h1 h2 => ?_, by norm_num, by norm_num⟩
  obtain rfl | rfl | rfl : d = 3 ∨ d = 4 ∨ d = 5 := by omega
  all_goals decide

/-! ### test_JND_and_invariance -/

theorem remLoop_seven (m : ℕ → ℤ) (f : ℕ → ℤ) :
    remLoop m 7 ((List.range (6 + 1)).map f) = .ok ((List.range (6 + 1)).map (fun i => f i % m i)) := rfl

/-- **C73 (J and ND).**  For plane quartics the comparison returns `true` if and only if the characteristic polynomials of the two
matrices of the ND routines, with the entries reduced modulo `p^2`, agree modulo `p^4`, `p^3`, `p^2`, ..., `p^2` in the
degrees 0, 1, 2, ..., 6. -/
theorem C73_jnd_exact {q : ℕ} (p : ℕ) {r : ℕ} (hr : 0 < r) (FJ : Matrix (Fin r) (Fin r) (ZMod q))
    (A B : Matrix (Fin 6) (Fin 6) (ZMod q)) :
    ∃ b, jndCompare p (CMat.ofMatrix FJ) (CMat.ofMatrix A) (.ok (some (CMat.ofMatrix B))) = .ok (some b) ∧
      (b = true ↔ ∀ i ≤ 6, (A.map (fun x => (x.val : ℤ) % (p : ℤ) ^ 2)).charpoly.coeff i ≡
        (B.map (fun x => (x.val : ℤ) % (p : ℤ) ^ 2)).charpoly.coeff i [ZMOD (p : ℤ) ^ (max (4 - i) 2)]) := by
  have hrep : repMat (CMat.ofMatrix FJ) = CMat.ofMatrix (FJ.map (fun x => (x.val : ℤ))) := by
    simp only [repMat, CMat.ofMatrix, CMat.mk.injEq, true_and]
    funext i j
    split_ifs <;> simp
  have hred : ∀ C : Matrix (Fin 6) (Fin 6) (ZMod q),
      (⟨6, 6, fun i j => (((CMat.ofMatrix C).e i j).val : ℤ) % (p : ℤ) ^ 2⟩ : CMat ℤ) =
        CMat.ofMatrix (C.map (fun x => (x.val : ℤ) % (p : ℤ) ^ 2)) := by
    intro C
    simp only [CMat.ofMatrix, CMat.mk.injEq, true_and]
    funext i j
    split_ifs <;> simp
  unfold jndCompare
  rw [hrep, C13_charpoly hr, Res.bind_ok, Res.bind_ok]
  have h1 : (CMat.ofMatrix A).rows = 6 := rfl
  have h2 : (CMat.ofMatrix A).cols = 6 := rfl
  have h3 : (CMat.ofMatrix B).rows = 6 := rfl
  have h4 : (CMat.ofMatrix B).cols = 6 := rfl
  simp only [h1, h2, h3, h4]
  rw [if_neg (by omega), hred A, hred B, C13_charpoly (by norm_num), C13_charpoly (by norm_num)]
  simp only [Res.bind_ok]
  rw [remLoop_seven, remLoop_seven]
  simp only [Res.bind_ok, pure_bind]
  refine ⟨_, rfl, ?_⟩
  rw [decide_eq_true_iff, List.map_inj_left]
  have hm : ∀ i, (if i < 3 then (p : ℤ) ^ (4 - i) else (p : ℤ) ^ 2) = (p : ℤ) ^ (max (4 - i) 2) := by
    intro i
    split
    · rw [max_eq_left (by omega)]
    · rw [max_eq_right (by omega)]
  constructor
  · intro h i hi
    have := h i (List.mem_range.2 (by omega))
    rw [hm] at this
    exact this
  · intro h i hi
    have := h i (by have := List.mem_range.1 hi; omega)
    rw [hm]
    exact this

/-- **C73 (J and ND: the difference is ignored).**  The matrix of the J routines has no influence on the result: a difference between
the two matrices is only printed, and the program may go on to PASS. -/
theorem C73_jnd_wrong :
    (∀ {q : ℕ} (p : ℕ) {r r' : ℕ}, 0 < r → 0 < r' → ∀ (FJ : Matrix (Fin r) (Fin r) (ZMod q)) (FJ' : Matrix (Fin r') (Fin r') (ZMod q))
      (FND : CMat (ZMod q)) (Fnew : Res (Option (CMat (ZMod q)))),
      jndCompare p (CMat.ofMatrix FJ) FND Fnew = jndCompare p (CMat.ofMatrix FJ') FND Fnew) ∧
    ∃ FJ FND : Matrix (Fin 6) (Fin 6) (ZMod (5 ^ 3)), FJ ≠ FND ∧
      jndCompare 5 (CMat.ofMatrix FJ) (CMat.ofMatrix FND) (.ok (some (CMat.ofMatrix FND))) = .ok (some true) := by
  constructor
  · intro q p r r' hr hr' FJ FJ' FND Fnew
    have hrep : ∀ {r : ℕ} (FJ : Matrix (Fin r) (Fin r) (ZMod q)),
        repMat (CMat.ofMatrix FJ) = CMat.ofMatrix (FJ.map (fun x => (x.val : ℤ))) := by
      intro r FJ
      simp only [repMat, CMat.ofMatrix, CMat.mk.injEq, true_and]
      funext i j
      split_ifs <;> simp
    unfold jndCompare
    rw [hrep, hrep, C13_charpoly hr, C13_charpoly hr', Res.bind_ok, Res.bind_ok]
  · refine ⟨0, 1, ?_, ?_⟩
    · intro h
      have := congrFun (congrFun h 0) 0
      revert this
      decide
    · obtain ⟨b, hb, hb'⟩ := C73_jnd_exact 5 (by norm_num : 0 < 6) (0 : Matrix (Fin 6) (Fin 6) (ZMod (5 ^ 3))) 1 1
      rw [hb, hb'.2 (fun i _ => rfl)]

/-! ### test_zeta_function -/

theorem zetaStr_of_check {α : Type} (zeta : MonMap Int → Int → Res α) {input : Str} {f : MonMap Int} {p : Int}
    (h : (match (do let rp ← readInt input; let rf ← readPoly readInt rp.2; pure (rf.1, rp.1) : Res _) with
      | .ok m => decide (m = (f, p)) | _ => false) = true) : zetaStr zeta input = zeta f p := by
  split at h
  · rename_i m hm
    have := of_decide_eq_true h
    subst this
    rw [Res.bind_eq_ok] at hm
    obtain ⟨rp, h1, hm⟩ := hm
    rw [Res.bind_eq_ok] at hm
    obtain ⟨rf, h2, hm⟩ := hm
    cases hm
    rw [zetaStr, h1, Res.bind_ok, h2, Res.bind_ok]
  · cases h

/-- **C73 (zeta: the inputs).**  The three calls of `test_zeta_function` are for the polynomials in the Spec. -/
theorem C73_zeta_inputs {α : Type} (zeta : MonMap Int → Int → Res α) :
    zetaStr zeta genus3Input.toList = zeta genus3Poly 17 ∧
    zetaVec zeta dworkMonomials [1, 1, 1, 1, 1] 23 = zeta dworkTestPoly 23 ∧
    zetaStr zeta k3Input.toList = zeta k3Poly 23 := by
  refine ⟨zetaStr_of_check zeta (by decide +kernel), ?_, zetaStr_of_check zeta (by decide +kernel)⟩
  unfold zetaVec
  have h2 : checkKeys dworkMonomials = .ok () := by decide +kernel
  have h3 : (dworkMonomials.zip [1, 1, 1, 1, 1]).foldl (fun m e => MonMap.set m e.1 e.2) ([] : MonMap Int) = dworkTestPoly := by
    decide +kernel
  rw [h2, h3]
  rfl

theorem normZZX_eq_nil (c : List Int) : normZZX c = [] ↔ ∀ x ∈ c, x = 0 := by
  have h : ∀ l : List Int, l.dropWhile (fun x => decide (x = 0)) = [] ↔ ∀ x ∈ l, x = 0 := by
    intro l
    induction l with
    | nil => simp
    | cons x l ih =>
      rw [List.dropWhile_cons]
      by_cases hx : x = 0
      · rw [if_pos (by simp [hx]), ih]; simp [hx]
      · rw [if_neg (by simp [hx])]; simp [hx]
  unfold normZZX
  rw [List.reverse_eq_nil_iff, h]
  simp

/-- **C73 (zeta: what is tested).**  The program returns 0 if and only if none of the three polynomials computed is zero: the expected
polynomials are never looked at. -/
theorem C73_zeta_exact (zeta : MonMap Int → Int → Res (Option (List Int × CMat Int))) (r1 r2 r3 : List Int × CMat Int)
    (h1 : zeta genus3Poly 17 = .ok (some r1)) (h2 : zeta dworkTestPoly 23 = .ok (some r2)) (h3 : zeta k3Poly 23 = .ok (some r3)) :
    ∃ c, zetaTestMain zeta = .ok (some c) ∧ (c = 0 ∨ c = 1) ∧
      (c = 0 ↔ (∃ x ∈ r1.1, x ≠ 0) ∧ (∃ x ∈ r2.1, x ≠ 0) ∧ ∃ x ∈ r3.1, x ≠ 0) := by
  obtain ⟨e1, e2, e3⟩ := C73_zeta_inputs zeta
  have key : ∀ (text : Str) (c : List Int), (zetaTest text c = 0 ∧ ∃ x ∈ c, x ≠ 0) ∨ (zetaTest text c = 1 ∧ ¬ ∃ x ∈ c, x ≠ 0) := by
    intro text c
    unfold zetaTest
    by_cases h : normZZX c = []
    · right
      simp only [if_pos h, true_and]
      rw [normZZX_eq_nil] at h
      push Not
      exact h
    · left
      simp only [if_neg h, true_and]
      rw [normZZX_eq_nil] at h
      push Not at h
      exact h
  unfold zetaTestMain
  rw [e1, h1, Res.bind_ok]
  simp only
  rw [e2, h2, Res.bind_ok]
  simp only
  rw [e3, h3, Res.bind_ok]
  refine ⟨_, rfl, ?_, ?_⟩
  · split <;> simp
  · rcases key genus3Text.toList r1.1 with ⟨a, a'⟩ | ⟨a, a'⟩ <;> rcases key dworkText.toList r2.1 with ⟨b, b'⟩ | ⟨b, b'⟩ <;>
      rcases key k3Text.toList r3.1 with ⟨c, c'⟩ | ⟨c, c'⟩ <;> simp [a, b, c, a', b', c']

/-- **C73 (zeta: wrong routines pass).**  With `zeta_function` as it is, but any routine at all, right or wrong, in place of the one which
computes the Frobenius matrix: each polynomial that `zeta_function` returns has the leading coefficient 1, hence
whenever the program ends it reports success. -/
theorem C73_zeta_wrong (la : (p : ℕ) → RankDet (ZMod p)) (rnd : (p : ℕ) → Rnd (ZMod p)) (t : ℕ)
    (frob : (p : ℕ) → [Fact p.Prime] → FrobRoutine p) :
    (∀ f p r, zetaOf la rnd t frob f p = .ok (some r) → r.1.getLast? = some 1) ∧
    ∀ c, zetaTestMain (zetaOf la rnd t frob) = .ok (some c) → c = 0 := by
  have h1 : ∀ f p r, zetaOf la rnd t frob f p = .ok (some r) → r.1.getLast? = some 1 := by
    intro f p r h
    unfold zetaOf at h
    split at h
    · rename_i hp
      cases f with
      | nil => cases h
      | cons e f =>
        obtain ⟨k, c⟩ := e
        unfold zetaMain at h
        simp only [C40_precision_default _ _ _ _ _ le_rfl] at h
        cases hd : defaultArgs p.toNat ((k.length : Int) - 1) (sumVec k) with
        | error e => rw [hd] at h; cases h
        | ok a =>
          rw [hd] at h
          simp only [Except.map, Res.bind_ok, Res.bind_eq_ok] at h
          obtain ⟨o, -, h⟩ := h
          cases o with
          | none => cases h
          | some o =>
            obtain ⟨nd, g⟩ := o
            simp only [Res.bind_eq_ok] at h
            obtain ⟨F, -, -, -, cp, hcp, h⟩ := h
            obtain rfl := Option.some.inj (Except.ok.inj h)
            rw [zetaPoly, if_pos rfl] at hcp
            obtain ⟨-, -, -, s1, s2, -⟩ := C15_shape _ _ _ _ hp.pos _ hcp
            rw [List.getLast?_eq_getElem?, s1]
            exact s2
    · cases h
  refine ⟨h1, fun c hc => ?_⟩
  have hc0 := hc
  obtain ⟨e1, e2, e3⟩ := C73_zeta_inputs (zetaOf la rnd t frob)
  unfold zetaTestMain at hc
  rw [e1, Res.bind_eq_ok] at hc
  obtain ⟨o1, a1, hc⟩ := hc
  cases o1 with
  | none => cases hc
  | some r1 =>
    simp only at hc
    rw [e2, Res.bind_eq_ok] at hc
    obtain ⟨o2, a2, hc⟩ := hc
    cases o2 with
    | none => cases hc
    | some r2 =>
      simp only at hc
      rw [e3, Res.bind_eq_ok] at hc
      obtain ⟨o3, a3, hc⟩ := hc
      cases o3 with
      | none => cases hc
      | some r3 =>
        obtain ⟨c', b1, -, b3⟩ := C73_zeta_exact _ r1 r2 r3 a1 a2 a3
        rw [hc0] at b1
        obtain rfl := Option.some.inj (Except.ok.inj b1)
        have hne : ∀ {r : List Int × CMat Int}, r.1.getLast? = some 1 → ∃ x ∈ r.1, x ≠ 0 :=
          fun h => ⟨1, List.mem_of_getLast? h, one_ne_zero⟩
        exact b3.2 ⟨hne (h1 _ _ _ a1), hne (h1 _ _ _ a2), hne (h1 _ _ _ a3)⟩

/-- Constant polynomials pass, the zero polynomial does not. -/
example (M : CMat Int) : zetaTestMain (fun _ _ => .ok (some ([5], M))) = .ok (some 0) ∧
    zetaTestMain (fun _ _ => .ok (some ([0, 0], M))) = .ok (some 1) := by
  constructor
  · obtain ⟨c, h, -, h'⟩ := C73_zeta_exact (fun _ _ => .ok (some ([5], M))) _ _ _ rfl rfl rfl
    rw [h, h'.2 (by simp)]
  · obtain ⟨c, h, h0, h'⟩ := C73_zeta_exact (fun _ _ => .ok (some ([0, 0], M))) _ _ _ rfl rfl rfl
    rcases h0 with rfl | rfl
    · exact absurd (h'.1 rfl) (by simp)
    · exact h

/-- The Fermat cubic modulo 5, whose Frobenius polynomial is `T^2 + 5`, with a wrong routine: the polynomial `T^2 - T + 5` is returned, and
would pass. -/
example : ∃ (la : (p : ℕ) → RankDet (ZMod p)) (rnd : (p : ℕ) → Rnd (ZMod p)) (frob : (p : ℕ) → [Fact p.Prime] → FrobRoutine p)
    (r : List Int × CMat Int), zetaOf la rnd 1 frob exFermat 5 = .ok (some r) ∧ r.1 = [5, -1, 1] ∧ zetaTest genus3Text.toList r.1 = 0 := by
  have hp : Fact (Nat.Prime 5) := ⟨by norm_num⟩
  obtain ⟨la0, hla0⟩ := exists_rankDet (ZMod 5)
  let la : (p : ℕ) → RankDet (ZMod p) := fun p => if h : p = 5 then h ▸ la0 else ⟨fun _ => 0, fun _ => 0⟩
  let frob : (p : ℕ) → [Fact p.Prime] → FrobRoutine p := fun p _ _ _ _ _ =>
    .ok (2, ⟨2, 2, fun i j => if i = 0 ∧ j = 1 then -5 else if i = 1 then 1 else 0⟩)
  have hwf : WFPoly (2 + 1) exFermat := by unfold exFermat WFPoly NonNeg LexLt; decide
  have hdeg : ∀ e ∈ exFermat, deg e.1 = (3 : Nat) := by unfold exFermat; decide
  have hz : choosePrec 5 (2 : Nat) (3 : Nat) 0 true = .ok ⟨3, [2, 2], [2, 2, 2], true⟩ := by
    rw [C40_precision_default _ _ _ _ _ (by norm_num)]; rfl
  have hsize : ∀ l ≤ (2 + 1) * 3, (l + 2).choose 2 < 2 ^ 63 := choose_small (by decide)
  have hnz : NoCommonZero.{0} (fun i : Fin (2 + 1) => X i * pderiv i (toPoly (2 + 1) (reduceCoeffs 5 exFermat))) := by
    intro K _ _ x hx
    funext i
    have h30 : (3 : ZMod 5) ≠ 0 := (by decide : (3 : Fin 5) ≠ 0)
    have h3 : (algebraMap (ZMod 5) K) 3 ≠ 0 := by rwa [Ne, map_eq_zero]
    have := hx i
    beta_reduce at this
    rw [exFermat_pderiv, ← C_mul_X_pow_eq_monomial] at this
    simp only [map_mul, map_pow, aeval_X, aeval_C, mul_eq_zero, h3, false_or] at this
    rcases this with h | h
    · exact h
    · exact pow_eq_zero_iff (two_ne_zero) |>.1 h
  have hpoly : zetaPoly 5 (2 : Nat) 0 ⟨3, [2, 2], [2, 2, 2], true⟩
      (repMat (⟨2, 2, fun i j => if i = 0 ∧ j = 1 then -5 else if i = 1 then 1 else 0⟩ : CMat (ZMod (5 ^ 3)))) = .ok [5, -1, 1] := by
    decide +kernel
  have hmain : ∃ r, zetaMain 5 la0 ⟨fun _ => 0, fun _ => 0⟩ 1 (frob 5) exFermat 0 true true = .ok (some r) ∧ r.1 = [5, -1, 1] := by
    have hnone := zetaMain_none la0 hla0 ⟨fun _ => 0, fun _ => 0⟩ 1 (frob 5) exFermat hwf (by decide) hdeg (by norm_num) hsize hz
      (by decide) (better := true)
    rw [zetaMain_eq la0 _ 1 (frob 5) exFermat hwf (by decide) hdeg, hz, Res.bind_ok] at hnone ⊢
    obtain ⟨-, h⟩ := (C40_model.{0} (q := 5 ^ 3) (dvd_pow_self 5 (by norm_num)) la0 hla0 ⟨fun _ => 0, fun _ => 0⟩ 1 true exFermat hwf
      (by decide) hdeg (by norm_num) hsize).2 exFermat_smooth
    rcases h with h | ⟨nd, g, h, -⟩
    · have h' : chooseModel la0 ⟨fun _ => 0, fun _ => 0⟩ 1 (5 ^ (3 : ℤ).toNat) true (reduceCoeffs 5 exFermat)
        (reduceCoeffs (5 ^ (3 : ℤ).toNat) exFermat) = .ok none := h
      simp only at hnone
      rw [h'] at hnone
      exact absurd hnz (hnone rfl).2
    · have h' : chooseModel la0 ⟨fun _ => 0, fun _ => 0⟩ 1 (5 ^ (3 : ℤ).toNat) true (reduceCoeffs 5 exFermat)
        (reduceCoeffs (5 ^ (3 : ℤ).toNat) exFermat) = .ok (some (nd, g)) := h
      simp only
      rw [h', Res.bind_ok]
      refine ⟨([5, -1, 1], repMat (⟨2, 2, fun i j => if i = 0 ∧ j = 1 then -5 else if i = 1 then 1 else 0⟩ : CMat (ZMod (5 ^ 3)))),
        ?_, rfl⟩
      · show (do
          let F ← (Except.ok (2, ⟨2, 2, fun i j => if i = 0 ∧ j = 1 then -5 else if i = 1 then 1 else 0⟩) : Res (ℕ × CMat (ZMod (5 ^ 3))))
          check (decide (F.1 + 1 = 3))
          let cp ← zetaPoly 5 (2 : Nat) 0 ⟨3, [2, 2], [2, 2, 2], true⟩ (repMat F.2)
          .ok (some (cp, repMat F.2))) = _
        rw [Res.bind_ok]
        simp only [Nat.reduceAdd, decide_true, check_true, Res.bind_ok]
        rw [hpoly]
        rfl
  obtain ⟨r, hr, hr'⟩ := hmain
  refine ⟨la, fun _ => ⟨fun _ => 0, fun _ => 0⟩, frob, r, ?_, hr', ?_⟩
  · unfold zetaOf
    rw [dif_pos (show (5 : ℤ).toNat.Prime from hp.out)]
    exact hr
  · rw [hr']
    decide +kernel

end Verif
