import Verif.Model.TestPrograms
import Verif.Props.Construct
import Verif.Props.DrawPaths
import Verif.Props.SelfTest
import Verif.Props.Pipeline
import Mathlib.Order.Filter.AtTopBot.Basic

/-!
Lemmas about the test programs.
-/

namespace Verif

open Verif.Spec MvPolynomial

/-! ### The random constructors -/

section

variable {p : ℕ} [hprime : Fact p.Prime] {K n d : ℕ} {la : LinAlg (ZMod p)}

/-- The polynomials drawn. -/
def Drawn (rnd : ℕ → ZMod p) (n d j : ℕ) : MonMap (ZMod p) :=
  (comps n d).zip ((List.range (comps n d).length).map (fun i => rnd (j * (comps n d).length + i)))

theorem random_cases (hK : 1 ≤ K) (hla : LinAlgOK la) (flint : Bool)
    (hsize : ∀ l ≤ (n + 1) * d, (l + n).choose n < 2 ^ 63) (hd : 2 ≤ d) (hnd : n < d) (hpd : ¬ p ∣ d) (rnd : ℕ → ZMod p) (t : ℕ) :
    (DR.random (padicSolver p K la flint K) (padicSolver p K la flint 1) rnd t n d = .ok none ∧
      ∀ i < t, ¬ NoCommonZero.{0} (fun x => pderiv x (toPoly (n + 1) (Drawn rnd n d i)))) ∨
    ∃ j D, j < t ∧ (∀ i < j, ¬ NoCommonZero.{0} (fun x => pderiv x (toPoly (n + 1) (Drawn rnd n d i)))) ∧
      DR.random (padicSolver p K la flint K) (padicSolver p K la flint 1) rnd t n d = .ok (some D) ∧
      DR.ofBar (padicSolver p K la flint K) (Drawn rnd n d j) = .ok D ∧
      Constructed (padicSolver p K la flint K) p (naiveLift (p ^ K) (Drawn rnd n d j)) n d D := by
  obtain ⟨L, P, hL, hP, h1, h2⟩ := C61_random (n := n) (d := d) (flint := flint) (precision := K) (precision1 := 1)
    hK hla le_rfl hsize hd hnd hpd rnd t
  have hs : (d + n).choose n < 2 ^ 63 := hsize d (Nat.le_mul_of_pos_left _ (by omega))
  have hLe : L = comps n d := by
    have := tupleListGenerator_eq d n hs
    rw [hL] at this
    exact Except.ok.inj this
  subst hLe
  have hPe : ∀ k, P k = Drawn rnd n d k := hP
  simp only [hPe] at h1 h2
  by_cases hex : ∃ j < t, NoCommonZero.{0} (fun x => pderiv x (toPoly (n + 1) (Drawn rnd n d j)))
  · right
    classical
    obtain ⟨ht, hz⟩ := Nat.find_spec hex
    have hmin : ∀ i < Nat.find hex, ¬ NoCommonZero.{0} (fun x => pderiv x (toPoly (n + 1) (Drawn rnd n d i))) := by
      intro i hi hc
      exact Nat.find_min hex hi ⟨by omega, hc⟩
    obtain ⟨D, hD, hb⟩ := h1 _ ht hmin hz
    have hwf := table_wf (n := n) (d := d) (comps_isTable n d) ((List.range (comps n d).length).map
      (fun i => rnd (Nat.find hex * (comps n d).length + i))) (by simp)
    refine ⟨Nat.find hex, D, ht, hmin, hD, hb, ⟨padicSolver_ok hla flint le_rfl, ?_, ?_, hsize, hb⟩⟩
    · rw [naiveLift_eq (f := Drawn rnd n d (Nat.find hex)) hwf.1]; exact repMap_wf hwf.1
    · rw [naiveLift_eq (f := Drawn rnd n d (Nat.find hex)) hwf.1]; exact repMap_deg hwf.2
  · left
    have hno : ∀ i < t, ¬ NoCommonZero.{0} (fun x => pderiv x (toPoly (n + 1) (Drawn rnd n d i))) :=
      fun i hi hc => hex ⟨i, hi, hc⟩
    exact ⟨h2 hno, hno⟩

theorem random_cases_ND (hK : 1 ≤ K) (hla : LinAlgOK la) (flint : Bool)
    (hsize : ∀ l ≤ (n + 1) * d, (l + n).choose n < 2 ^ 63) (hd : 2 ≤ d) (hnd : n < d) (hpd : ¬ p ∣ d) (rnd : ℕ → ZMod p) (t : ℕ) :
    (ND.random (padicSolver p K la flint K) (padicSolver p K la flint 1) rnd t n d = .ok none ∧
      ∀ i < t, ¬ NoCommonZero.{0} (fun x => X x * pderiv x (toPoly (n + 1) (Drawn rnd n d i)))) ∨
    ∃ j D, j < t ∧ (∀ i < j, ¬ NoCommonZero.{0} (fun x => X x * pderiv x (toPoly (n + 1) (Drawn rnd n d i)))) ∧
      ND.random (padicSolver p K la flint K) (padicSolver p K la flint 1) rnd t n d = .ok (some D) ∧
      ND.ofBar (padicSolver p K la flint K) (Drawn rnd n d j) = .ok D ∧
      ConstructedND (padicSolver p K la flint K) p (naiveLift (p ^ K) (Drawn rnd n d j)) n d D := by
  obtain ⟨L, P, hL, hP, h1, h2⟩ := C61_random_nd (n := n) (d := d) (flint := flint) (precision := K) (precision1 := 1)
    hK hla le_rfl hsize hd hnd hpd rnd t
  have hs : (d + n).choose n < 2 ^ 63 := hsize d (Nat.le_mul_of_pos_left _ (by omega))
  have hLe : L = comps n d := by
    have := tupleListGenerator_eq d n hs
    rw [hL] at this
    exact Except.ok.inj this
  subst hLe
  have hPe : ∀ k, P k = Drawn rnd n d k := hP
  simp only [hPe] at h1 h2
  by_cases hex : ∃ j < t, NoCommonZero.{0} (fun x => X x * pderiv x (toPoly (n + 1) (Drawn rnd n d j)))
  · right
    classical
    obtain ⟨ht, hz⟩ := Nat.find_spec hex
    have hmin : ∀ i < Nat.find hex, ¬ NoCommonZero.{0} (fun x => X x * pderiv x (toPoly (n + 1) (Drawn rnd n d i))) := by
      intro i hi hc
      exact Nat.find_min hex hi ⟨by omega, hc⟩
    obtain ⟨D, hD, hb⟩ := h1 _ ht hmin hz
    have hwf := table_wf (n := n) (d := d) (comps_isTable n d) ((List.range (comps n d).length).map
      (fun i => rnd (Nat.find hex * (comps n d).length + i))) (by simp)
    refine ⟨Nat.find hex, D, ht, hmin, hD, hb, ⟨padicSolver_ok hla flint le_rfl, ?_, ?_, hsize, hb⟩⟩
    · rw [naiveLift_eq (f := Drawn rnd n d (Nat.find hex)) hwf.1]; exact repMap_wf hwf.1
    · rw [naiveLift_eq (f := Drawn rnd n d (Nat.find hex)) hwf.1]; exact repMap_deg hwf.2
  · left
    have hno : ∀ i < t, ¬ NoCommonZero.{0} (fun x => X x * pderiv x (toPoly (n + 1) (Drawn rnd n d i))) :=
      fun i hi hc => hex ⟨i, hi, hc⟩
    exact ⟨h2 hno, hno⟩

end

/-! ### The loops -/

/-- A call which does not fail. -/
def Fine {α : Type} (x : Res (Option α)) (a : α) : Prop := x = .ok none ∨ x = .ok (some a)

theorem testLoop_fine {test : ℕ → Res (Option Bool)} : ∀ (c i : ℕ), (∀ k, i ≤ k → k < i + c → Fine (test k) true) →
    Fine (testLoop test c i) ()
  | 0, _, _ => Or.inr rfl
  | c + 1, i, h => by
      unfold testLoop
      rcases h i le_rfl (by omega) with h1 | h1 <;> rw [h1, Res.bind_ok]
      · exact Or.inl rfl
      · exact testLoop_fine c (i + 1) (fun k h1 h2 => h k (by omega) (by omega))

theorem testLoop_pass {test : ℕ → Res (Option Bool)} : ∀ (c i : ℕ), (∀ k, i ≤ k → k < i + c → test k = .ok (some true)) →
    testLoop test c i = .ok (some ())
  | 0, _, _ => rfl
  | c + 1, i, h => by
      unfold testLoop
      rw [h i le_rfl (by omega), Res.bind_ok]
      exact testLoop_pass c (i + 1) (fun k h1 h2 => h k (by omega) (by omega))

theorem outerLoop_fine {body : ℕ → Res (Option Unit)} : ∀ (c i : ℕ), (∀ k, i ≤ k → k < i + c → Fine (body k) ()) →
    Fine (outerLoop body c i) ()
  | 0, _, _ => Or.inr rfl
  | c + 1, i, h => by
      unfold outerLoop
      rcases h i le_rfl (by omega) with h1 | h1 <;> rw [h1, Res.bind_ok]
      · exact Or.inl rfl
      · exact outerLoop_fine c (i + 1) (fun k h1 h2 => h k (by omega) (by omega))

theorem outerLoop_pass {body : ℕ → Res (Option Unit)} : ∀ (c i : ℕ), (∀ k, i ≤ k → k < i + c → body k = .ok (some ())) →
    outerLoop body c i = .ok (some ())
  | 0, _, _ => rfl
  | c + 1, i, h => by
      unfold outerLoop
      rw [h i le_rfl (by omega), Res.bind_ok]
      exact outerLoop_pass c (i + 1) (fun k h1 h2 => h k (by omega) (by omega))

/-- The pairs which the programs run through. -/
def InRange (n d : ℕ) : Prop := (n = 2 ∧ 3 ≤ d ∧ d ≤ 5) ∨ (n = 3 ∧ d = 4)

def BoundOK (bound : ℕ → ℕ → ℕ) : Prop := ∀ i n d, n = 2 ∨ n = 3 → n < d → d ≤ bound i n → InRange n d

theorem degreeBound_ok : BoundOK degreeBound := by
  intro i n d hn h1 h2
  unfold degreeBound at h2
  unfold InRange
  split at h2 <;> omega

theorem degreeBoundSkip_ok : BoundOK degreeBoundSkip := by
  intro i n d hn h1 h2
  unfold degreeBoundSkip at h2
  unfold InRange
  split at h2
  · split at h2 <;> omega
  · omega

theorem tenRounds_fine {bound : ℕ → ℕ → ℕ} (hb : BoundOK bound) {test : ℕ → ℕ → ℕ → Res (Option Bool)}
    (h : ∀ i < 10, ∀ n d, InRange n d → Fine (test i n d) true) : Fine (tenRounds bound test) () := by
  unfold tenRounds
  refine outerLoop_fine 10 0 (fun i _ hi => outerLoop_fine 2 2 (fun n h1 h2 => testLoop_fine _ _ (fun d h3 h4 => ?_)))
  exact h i (by omega) n d (hb i n d (by omega) (by omega) (by omega))

theorem tenRounds_pass {bound : ℕ → ℕ → ℕ} (hb : BoundOK bound) {test : ℕ → ℕ → ℕ → Res (Option Bool)}
    (h : ∀ i < 10, ∀ n d, InRange n d → test i n d = .ok (some true)) : tenRounds bound test = .ok (some ()) := by
  unfold tenRounds
  refine outerLoop_pass 10 0 (fun i _ hi => outerLoop_pass 2 2 (fun n h1 h2 => testLoop_pass _ _ (fun d h3 h4 => ?_)))
  exact h i (by omega) n d (hb i n d (by omega) (by omega) (by omega))

theorem inRange_facts {n d : ℕ} (h : InRange n d) :
    2 ≤ n ∧ n ≤ 3 ∧ 2 ≤ d ∧ n < d ∧ d ≤ 5 ∧ ∀ l ≤ (n + 1) * d, (l + n).choose n < 2 ^ 63 := by
  have hs : ∀ l ≤ (n + 1) * d, (l + n).choose n < 2 ^ 63 := by
    rcases h with ⟨rfl, h1, h2⟩ | ⟨rfl, rfl⟩
    · obtain rfl | rfl | rfl : d = 3 ∨ d = 4 ∨ d = 5 := by omega
      all_goals exact choose_small (by decide)
    · exact choose_small (by decide)
  unfold InRange at h
  exact ⟨by omega, by omega, by omega, by omega, by omega, hs⟩

theorem not_dvd_of_lt {p d : ℕ} (h0 : 0 < d) (h : d < p) : ¬ p ∣ d := fun hd => by
  have := Nat.le_of_dvd h0 hd; omega

/-! ### The four tests for one prime -/

/-- The pole orders are at most `n`. -/
theorem pole_bound {R : Type} [CommRing R] {solve : Solver R} {p' : ℕ} {f : MonMap R} {D : DR R} {n d : ℕ}
    (hC : Constructed solve p' f n d D) {K : ℕ} (hK : n + K ≤ 21) : ∀ t ∈ D.basis, poleOrder n d t + K ≤ 21 := by
  obtain ⟨rfl, rfl, hI⟩ := hC.init
  intro t ht
  obtain ⟨k, h1, h2, h3⟩ := hI.basis.pole t ht
  rw [poleOrder_eq (by have := hI.ok.hd; omega) h3]
  omega

section

variable {p : ℕ} [hprime : Fact p.Prime] {n d : ℕ} (la : LinAlg (ZMod p)) (hla : LinAlgOK la) (flint : Bool)
  (zz : ℕ → ZMod p) (rnd : ℕ → ℕ) (t : ℕ) (hr : InRange n d) (hp : d < p)

include hla hr hp

theorem pathsTestJ_fine : Fine (pathsTestJ la flint zz rnd t n d) true := by
  obtain ⟨h1, h2, h3, h4, h5, h6⟩ := inRange_facts hr
  unfold pathsTestJ
  rcases random_cases (K := 4) (by norm_num) hla flint h6 h3 h4 (not_dvd_of_lt (by omega) hp) zz t with
    ⟨h, -⟩ | ⟨j, D, -, -, h, -, hC⟩
  · have h' : DR.random (q := p ^ 4) (fun T => solveSystemPadic la flint T 4) (fun T => solveSystemPadic la flint T 1) zz t n d
      = .ok none := h
    simp only
    rw [h', Res.bind_ok]
    exact Or.inl rfl
  · have h' : DR.random (q := p ^ 4) (fun T => solveSystemPadic la flint T 4) (fun T => solveSystemPadic la flint T 1) zz t n d
      = .ok (some D) := h
    simp only
    rw [h', Res.bind_ok]
    have := C72_test_paths (by norm_num) la hla flint 4 le_rfl hC (by omega) rnd t (if n = 3 then 3 else 5) (if n = 3 then 3 else 5)
    rw [if_pos (by split <;> omega)] at this
    exact this

theorem pathsTestND_fine : Fine (pathsTestND la flint zz rnd t n d) true := by
  obtain ⟨h1, h2, h3, h4, h5, h6⟩ := inRange_facts hr
  unfold pathsTestND
  rcases random_cases_ND (K := 4) (by norm_num) hla flint h6 h3 h4 (not_dvd_of_lt (by omega) hp) zz t with
    ⟨h, -⟩ | ⟨j, D, -, -, h, -, hC⟩
  · have h' : ND.random (q := p ^ 4) (fun T => solveSystemPadic la flint T 4) (fun T => solveSystemPadic la flint T 1) zz t n d
      = .ok none := h
    simp only
    rw [h', Res.bind_ok]
    exact Or.inl rfl
  · have h' : ND.random (q := p ^ 4) (fun T => solveSystemPadic la flint T 4) (fun T => solveSystemPadic la flint T 1) zz t n d
      = .ok (some D) := h
    simp only
    rw [h', Res.bind_ok]
    have := C72_test_paths_ND (by norm_num) la hla flint 4 le_rfl hC (by omega) rnd t (if n = 3 then 3 else 5) (if n = 3 then 3 else 5)
    rw [if_pos (by split <;> omega)] at this
    exact this

theorem basisTestJ_cases :
    (basisTestJ la flint zz t n d = .ok none ∧
      ∀ i < t, ¬ NoCommonZero.{0} (fun x => pderiv x (toPoly (n + 1) (Drawn zz n d i)))) ∨
    basisTestJ la flint zz t n d = .ok (some true) := by
  obtain ⟨h1, h2, h3, h4, h5, h6⟩ := inRange_facts hr
  unfold basisTestJ
  rcases random_cases (K := 4) (by norm_num) hla flint h6 h3 h4 (not_dvd_of_lt (by omega) hp) zz t with
    ⟨h, h0⟩ | ⟨j, D, -, -, h, -, hC⟩
  · have h' : DR.random (q := p ^ 4) (fun T => solveSystemPadic la flint T 4) (fun T => solveSystemPadic la flint T 1) zz t n d
      = .ok none := h
    simp only
    rw [h', Res.bind_ok]
    exact Or.inl ⟨rfl, h0⟩
  · have h' : DR.random (q := p ^ 4) (fun T => solveSystemPadic la flint T 4) (fun T => solveSystemPadic la flint T 1) zz t n d
      = .ok (some D) := h
    simp only
    rw [h', Res.bind_ok]
    have := C63_test_J (by norm_num) la hla flint 4 le_rfl hC (by omega) (if n = 3 then 1 else 3)
    rw [if_pos (pole_bound hC (by split <;> omega))] at this
    have this' : selfTestJ (fun T => solveSystemPadic la flint T 4) D (if n = 3 then 1 else 3) = .ok true := this
    simp only
    rw [this']
    exact Or.inr rfl

theorem basisTestND_cases :
    (basisTestND la flint zz t n d = .ok none ∧
      ∀ i < t, ¬ NoCommonZero.{0} (fun x => X x * pderiv x (toPoly (n + 1) (Drawn zz n d i)))) ∨
    basisTestND la flint zz t n d = .ok (some true) := by
  obtain ⟨h1, h2, h3, h4, h5, h6⟩ := inRange_facts hr
  unfold basisTestND
  rcases random_cases_ND (K := 4) (by norm_num) hla flint h6 h3 h4 (not_dvd_of_lt (by omega) hp) zz t with
    ⟨h, h0⟩ | ⟨j, D, -, -, h, -, hC⟩
  · have h' : ND.random (q := p ^ 4) (fun T => solveSystemPadic la flint T 4) (fun T => solveSystemPadic la flint T 1) zz t n d
      = .ok none := h
    simp only
    rw [h', Res.bind_ok]
    exact Or.inl ⟨rfl, h0⟩
  · have h' : ND.random (q := p ^ 4) (fun T => solveSystemPadic la flint T 4) (fun T => solveSystemPadic la flint T 1) zz t n d
      = .ok (some D) := h
    simp only
    rw [h', Res.bind_ok]
    have := C63_in_range (by norm_num) la hla flint 4 le_rfl hC (by omega) (if n = 3 then 1 else 3) (by split <;> omega)
    have this' : selfTestND (fun T => solveSystemPadic la flint T 4) D (if n = 3 then 1 else 3) = .ok true := this.2
    simp only
    rw [this']
    exact Or.inr rfl

/-- When a smooth polynomial is drawn and the numbers for the paths are fair, the test returns `true`, from some bound on the passes on. -/
theorem pathsTestJ_ends {j : ℕ} (hj : NoCommonZero.{0} (fun x => pderiv x (toPoly (n + 1) (Drawn zz n d j))))
    (hfair : ∀ k < n + 1, ∀ pos, ∃ j, pos ≤ j ∧ rnd j % (n + 1) = k) :
    ∀ᶠ t in Filter.atTop, pathsTestJ la flint zz rnd t n d = .ok (some true) := by
  obtain ⟨h1, h2, h3, h4, h5, h6⟩ := inRange_facts hr
  have hrc := random_cases (K := 4) (by norm_num) hla flint h6 h3 h4 (not_dvd_of_lt (by omega) hp) zz
  rcases hrc (j + 1) with ⟨-, h⟩ | ⟨i, D, hi, hmin, h, hb, hC⟩
  · exact absurd hj (h j (by omega))
  · have hN : 0 < (if n = 3 then 3 else 5) := by split <;> omega
    obtain ⟨t0, ht0⟩ := C72_ends (by norm_num) la hla flint 4 le_rfl hC (by omega) rnd hfair _ _ hN hN
    filter_upwards [Filter.eventually_ge_atTop (max t0 (j + 1))] with t ht
    rcases hrc t with ⟨-, h'⟩ | ⟨i', D', hi', hmin', h', hb', hC'⟩
    · exact absurd hj (h' j (by omega))
    · have hz : ∀ i D, DR.ofBar (padicSolver p 4 la flint 4) (Drawn zz n d i) = .ok D →
          NoCommonZero.{0} (fun x => pderiv x (toPoly (n + 1) (Drawn zz n d i))) := by
        intro i D hD
        have hdvd : p ∣ p ^ 4 := dvd_pow_self p (by norm_num)
        have hwf := table_wf (n := n) (d := d) (comps_isTable n d) ((List.range (comps n d).length).map
          (fun k => zz (i * (comps n d).length + k))) (by simp)
        rw [DR.ofBar, naiveLift_eq (f := Drawn zz n d i) hwf.1] at hD
        have hne : Drawn zz n d i ≠ [] := by
          intro h0
          have h1 := congrArg List.length h0
          have h2 := table_nonempty (comps_isTable n d)
          simp only [Drawn, List.length_zip, List.length_map, List.length_range, min_self, List.length_nil] at h1
          omega
        have := ((C59_smooth (by norm_num) hdvd hla flint le_rfl (repMap_wf (q := p ^ 4) hwf.1) (repMap_ne hne)
          (repMap_deg hwf.2) h6 h3).1.1 ⟨D, hD⟩).2.2
        exact (smooth_repMap hdvd _).1 this
      have hii : i' = i := by
        rcases lt_trichotomy i' i with hlt | heq | hgt
        · exact absurd (hz _ _ hb') (hmin _ hlt)
        · exact heq
        · exact absurd (hz _ _ hb) (hmin' _ hgt)
      subst hii
      rw [hb] at hb'
      obtain rfl := Except.ok.inj hb'
      unfold pathsTestJ
      have h'' : DR.random (q := p ^ 4) (fun T => solveSystemPadic la flint T 4) (fun T => solveSystemPadic la flint T 1) zz t n d
        = .ok (some D) := h'
      simp only
      rw [h'', Res.bind_ok]
      exact ht0 t (by omega)

theorem pathsTestND_ends {j : ℕ} (hj : NoCommonZero.{0} (fun x => X x * pderiv x (toPoly (n + 1) (Drawn zz n d j))))
    (hfair : ∀ k < n + 1, ∀ pos, ∃ j, pos ≤ j ∧ rnd j % (n + 1) = k) :
    ∀ᶠ t in Filter.atTop, pathsTestND la flint zz rnd t n d = .ok (some true) := by
  obtain ⟨h1, h2, h3, h4, h5, h6⟩ := inRange_facts hr
  have hrc := random_cases_ND (K := 4) (by norm_num) hla flint h6 h3 h4 (not_dvd_of_lt (by omega) hp) zz
  rcases hrc (j + 1) with ⟨-, h⟩ | ⟨i, D, hi, hmin, h, hb, hC⟩
  · exact absurd hj (h j (by omega))
  · have hN : (if n = 3 then 3 else 5) ≠ 0 := by split <;> omega
    obtain ⟨t0, ht0⟩ := C72_ends_ND (by norm_num) la hla flint 4 le_rfl hC (by omega) rnd hfair _ _ hN hN
    filter_upwards [Filter.eventually_ge_atTop (max t0 (j + 1))] with t ht
    rcases hrc t with ⟨-, h'⟩ | ⟨i', D', hi', hmin', h', hb', hC'⟩
    · exact absurd hj (h' j (by omega))
    · have hz : ∀ i D, ND.ofBar (padicSolver p 4 la flint 4) (Drawn zz n d i) = .ok D →
          NoCommonZero.{0} (fun x => X x * pderiv x (toPoly (n + 1) (Drawn zz n d i))) := by
        intro i D hD
        have hdvd : p ∣ p ^ 4 := dvd_pow_self p (by norm_num)
        have hwf := table_wf (n := n) (d := d) (comps_isTable n d) ((List.range (comps n d).length).map
          (fun k => zz (i * (comps n d).length + k))) (by simp)
        rw [ND.ofBar, naiveLift_eq (f := Drawn zz n d i) hwf.1] at hD
        have hne : Drawn zz n d i ≠ [] := by
          intro h0
          have h1 := congrArg List.length h0
          have h2 := table_nonempty (comps_isTable n d)
          simp only [Drawn, List.length_zip, List.length_map, List.length_range, min_self, List.length_nil] at h1
          omega
        have := ((C59_nondegenerate (by norm_num) hdvd hla flint le_rfl (repMap_wf (q := p ^ 4) hwf.1) (repMap_ne hne)
          (repMap_deg hwf.2) h6 h3).1.1 ⟨D, hD⟩).2.2
        exact (nondeg_repMap hdvd _).1 this
      have hii : i' = i := by
        rcases lt_trichotomy i' i with hlt | heq | hgt
        · exact absurd (hz _ _ hb') (hmin _ hlt)
        · exact heq
        · exact absurd (hz _ _ hb) (hmin' _ hgt)
      subst hii
      rw [hb] at hb'
      obtain rfl := Except.ok.inj hb'
      unfold pathsTestND
      have h'' : ND.random (q := p ^ 4) (fun T => solveSystemPadic la flint T 4) (fun T => solveSystemPadic la flint T 1) zz t n d
        = .ok (some D) := h'
      simp only
      rw [h'', Res.bind_ok]
      exact ht0 t (by omega)

end

end Verif
