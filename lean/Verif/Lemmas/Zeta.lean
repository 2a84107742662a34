import Verif.Spec.Zeta
import Verif.Lemmas.DefaultArgs
import Verif.Lemmas.Tools
import Mathlib.Data.Nat.Prime.Factorial
import Verif.Props.Charpoly

/-! Lemmas for C40. -/

namespace Verif

open Spec

/-- What the table of `default_args` gives, beyond C12. -/
def TabNum (p : Int) (n : Int) (a : DefaultArgs) : Prop :=
  0 < a.precision ∧
  ((n = 2 ∧ ∃ x y, a.N = [x, y] ∧ (x = 0 ∨ 2 ≤ x) ∧ 1 ≤ y ∧
      (∀ M, x ≤ M → y ≤ M → 4 + M ≤ p → a.precision ≤ 2 * M - 1) ∧
      (3 + x ≤ p → 4 + y ≤ p → 2 * x - 2 ≤ a.precision ∧ 2 * y - 1 ≤ a.precision)) ∨
   (n = 3 ∧ ∃ x y w, a.N = [x, y, w] ∧ 3 ≤ x ∧ 2 ≤ y ∧ 1 ≤ w ∧
      (∀ M, x ≤ M → y ≤ M → w ≤ M → 6 + M ≤ p → a.precision ≤ 2 * M - 1) ∧
      (4 + x ≤ p → 5 + y ≤ p → 6 + w ≤ p →
        2 * x - 3 ≤ a.precision ∧ 2 * y - 2 ≤ a.precision ∧ 2 * w - 1 ≤ a.precision)))

theorem tabNum2 {p P x y : Int} {c : List Int} (h : 0 < P) (hx : x = 0 ∨ 2 ≤ x) (hy : 1 ≤ y)
    (hP : ∀ M, x ≤ M → y ≤ M → 4 + M ≤ p → P ≤ 2 * M - 1)
    (hQ : 3 + x ≤ p → 4 + y ≤ p → 2 * x - 2 ≤ P ∧ 2 * y - 1 ≤ P) : TabNum p 2 ⟨P, [x, y], c⟩ :=
  ⟨h, Or.inl ⟨rfl, x, y, rfl, hx, hy, hP, hQ⟩⟩

theorem tabNum3 {p P x y w : Int} {c : List Int} (h : 0 < P) (hx : 3 ≤ x) (hy : 2 ≤ y) (hw : 1 ≤ w)
    (hP : ∀ M, x ≤ M → y ≤ M → w ≤ M → 6 + M ≤ p → P ≤ 2 * M - 1)
    (hQ : 4 + x ≤ p → 5 + y ≤ p → 6 + w ≤ p → 2 * x - 3 ≤ P ∧ 2 * y - 2 ≤ P ∧ 2 * w - 1 ≤ P) :
    TabNum p 3 ⟨P, [x, y, w], c⟩ :=
  ⟨h, Or.inr ⟨rfl, x, y, w, rfl, hx, hy, hw, hP, hQ⟩⟩

theorem tabNum_ok {p n d : Int} {a : DefaultArgs} (h : defaultArgs p n d = .ok a) : TabNum p n a := by
  have hmem : (n, d) ∈ defaultPairs := by
    by_contra hn
    rw [(C12_domain p n d).2 hn] at h
    cases h
  simp only [defaultPairs, List.mem_cons, Prod.mk.injEq, List.not_mem_nil, or_false] at hmem
  obtain ⟨rfl, rfl⟩ | ⟨rfl, rfl⟩ | ⟨rfl, rfl⟩ | ⟨rfl, rfl⟩ | ⟨rfl, rfl⟩ | ⟨rfl, rfl⟩ | ⟨rfl, rfl⟩ | ⟨rfl, rfl⟩ |
    ⟨rfl, rfl⟩ | ⟨rfl, rfl⟩ := hmem
  · rw [da_2_3] at h
    split_ifs at h <;> (cases h; exact tabNum2 (by norm_num) (by norm_num) (by norm_num) (by intros; omega) (by intros; omega))
  · rw [da_2_4] at h
    split_ifs at h <;> (cases h; exact tabNum2 (by norm_num) (by norm_num) (by norm_num) (by intros; omega) (by intros; omega))
  · rw [da_2_5] at h
    split_ifs at h <;> (cases h; exact tabNum2 (by norm_num) (by norm_num) (by norm_num) (by intros; omega) (by intros; omega))
  · rw [da_2_6] at h
    split_ifs at h <;> (cases h; exact tabNum2 (by norm_num) (by norm_num) (by norm_num) (by intros; omega) (by intros; omega))
  · rw [da_2_7] at h
    split_ifs at h <;> (cases h; exact tabNum2 (by norm_num) (by norm_num) (by norm_num) (by intros; omega) (by intros; omega))
  · rw [da_2_8] at h
    split_ifs at h <;> (cases h; exact tabNum2 (by norm_num) (by norm_num) (by norm_num) (by intros; omega) (by intros; omega))
  · rw [da_2_9] at h
    split_ifs at h <;> (cases h; exact tabNum2 (by norm_num) (by norm_num) (by norm_num) (by intros; omega) (by intros; omega))
  · rw [da_3_4] at h
    split_ifs at h <;> (cases h; exact tabNum3 (by norm_num) (by norm_num) (by norm_num) (by norm_num) (by intros; omega) (by intros; omega))
  · rw [da_3_5] at h
    split_ifs at h <;> (cases h; exact tabNum3 (by norm_num) (by norm_num) (by norm_num) (by norm_num) (by intros; omega) (by intros; omega))
  · rw [da_3_6] at h
    split_ifs at h <;> (cases h; exact tabNum3 (by norm_num) (by norm_num) (by norm_num) (by norm_num) (by intros; omega) (by intros; omega))

theorem valFact_ok {p : Nat} (hp : p.Prime) {i : Nat} {N : Int} (h : 1 ≤ (i : Int) + N) :
    valFact (p * (i + N) - 1) p = .ok (padicValNat p (p * (i + N) - 1).toNat.factorial : Int) := by
  have h1 : (1 : Int) ≤ p := by exact_mod_cast hp.one_le
  have h2 : (0 : Int) ≤ p * (i + N) - 1 := by nlinarith
  rw [valFact, if_neg (by omega), valuationOfFactorial_eq _ _ hp]

theorem raisePrec_ok {p : Nat} (hp : p.Prime) {i : Nat} {N r P : Int} (n : Int) (h : 1 ≤ (i : Int) + N)
    (hr : r = N + (i + 1) - n) : raisePrec p i r N P = .ok (max P (precNeeded p n i N)) := by
  rw [raisePrec, valFact_ok hp h, Res.bind_ok, precNeeded, ← hr]

/-- The last column: at least `2 N - 1`. -/
theorem precNeeded_ge {p : Nat} (hp : p.Prime) {n : Int} {i : Nat} {N : Int} (hi : (i : Int) + 1 = n) (hN : 1 ≤ N) :
    2 * N - 1 ≤ precNeeded p n i N := by
  have h1 : 1 ≤ p := hp.one_le
  obtain ⟨k, hk⟩ : ∃ k : Nat, (i : Int) + N = k + 1 := ⟨(i + N - 1).toNat, by omega⟩
  have hle : k ≤ padicValNat p (p * (i + N) - 1).toNat.factorial := by
    have e : (p * ((i : Int) + N) - 1).toNat = p * (k + 1) - 1 := by
      rw [hk]
      have : (1 : Int) ≤ p * (k + 1) := by nlinarith
      have h2 : 1 ≤ p * (k + 1) := by exact_mod_cast this
      zify [h2]
      rw [Int.toNat_of_nonneg (by omega)]
    rw [e]
    have hdvd : (p * k).factorial ∣ (p * (k + 1) - 1).factorial := by
      apply Nat.factorial_dvd_factorial
      rw [Nat.mul_add]; omega
    haveI := Fact.mk hp
    have := padicValNat_dvd_iff_le (p := p) (a := (p * (k + 1) - 1).factorial) (n := k) (Nat.factorial_ne_zero _)
    rw [← this]
    refine dvd_trans ?_ hdvd
    rw [padicValNat_dvd_iff_le (Nat.factorial_ne_zero _), padicValNat_factorial_mul]
    omega
  rw [precNeeded]
  have : (k : Int) - i ≤ max 0 ((padicValNat p (p * (i + N) - 1).toNat.factorial : Int) - i) :=
    le_trans (by omega) (le_max_right _ _)
  omega

/-! ### One pass of each loop -/

theorem incrStep_ok {p : Nat} (hp : p.Prime) {n abs : Int} {i : Nat} {r N : List Int} {P : Int} {l : Bool}
    (hr : i < r.length) (hN : i < N.length) (hn : (i : Int) < n) (hri : r[i] = N[i] + (i + 1) - n) (habs : 0 < abs) :
    incrStep p n abs i ⟨r, N, P, l⟩ = .ok ⟨r.set i (max N[i] abs + (i + 1) - n), N.set i (max N[i] abs),
      max P (precNeeded p n i (max N[i] abs)), l⟩ := by
  have e1 : max r[i] (abs - (n - 1) + i) = max N[i] abs + (i + 1) - n := by rw [hri]; omega
  have e2 : max N[i] abs + (i + 1) - n + n - (i + 1) = max N[i] abs := by omega
  simp only [incrStep, aget_of_lt r i hr, aget_of_lt N i hN, Res.bind_ok, e1, e2]
  rw [decide_eq_true (le_max_left _ _), check_true, Res.bind_ok, raisePrec_ok hp n (by omega) rfl, Res.bind_ok,
    aset_of_lt _ _ _ hr, Res.bind_ok, aset_of_lt _ _ _ hN, Res.bind_ok]

theorem absStep_ok {p : Nat} (hp : p.Prime) {n abs : Int} {i : Nat} {r N : List Int} {P : Int} {l : Bool}
    (hr : i < r.length) (hN : i < N.length) (hri : r[i] = N[i] + (i + 1) - n) (habs : 0 < abs) :
    absStep p n abs i ⟨r, N, P, l⟩ = .ok ⟨r.set i (if n - 1 - i < abs then abs + (i + 1) - n else 0),
      N.set i (if n - 1 - i < abs then abs else 0),
      (if n - 1 - i < abs then max P (precNeeded p n i abs) else P), l && decide (N[i] ≤ abs)⟩ := by
  have e1 : decide (abs - (n - 1) + i ≥ r[i]) = decide (N[i] ≤ abs) := by
    rw [hri]; exact decide_eq_decide.2 (by omega)
  have e2 : abs - (n - 1) + (i : Int) + n - (i + 1) = abs := by omega
  have e3 : abs - (n - 1) + (i : Int) = abs + (i + 1) - n := by omega
  simp only [absStep, aget_of_lt r i hr, Res.bind_ok, e1, e2]
  by_cases h : n - 1 - i < abs
  · rw [if_neg (show ¬ abs - (n - 1) + (i : Int) ≤ 0 by omega)]
    simp only [if_pos h, e3]
    rw [raisePrec_ok hp n (by omega) rfl, Res.bind_ok, aset_of_lt _ _ _ hr, Res.bind_ok, aset_of_lt _ _ _ hN,
      Res.bind_ok]
  · simp only [if_pos (show abs - (n - 1) + (i : Int) ≤ 0 by omega), if_neg h]
    rw [aset_of_lt _ _ _ hr, Res.bind_ok, aset_of_lt _ _ _ hN, Res.bind_ok]

theorem incr2 {p : Nat} (hp : p.Prime) {abs x y P : Int} {l : Bool} (habs : 0 < abs) :
    forRange 2 (⟨[x + (((0 : Nat) : Int) + 1) - 2, y + (((1 : Nat) : Int) + 1) - 2], [x, y], P, l⟩ : PrecSt)
      (incrStep p 2 abs) =
    .ok ⟨[max x abs + (((0 : Nat) : Int) + 1) - 2, max y abs + (((1 : Nat) : Int) + 1) - 2], [max x abs, max y abs],
      max (max P (precNeeded p 2 0 (max x abs))) (precNeeded p 2 1 (max y abs)), l⟩ := by
  simp only [forRange, Res.bind_ok]
  rw [incrStep_ok hp (by simp) (by simp) (by norm_num) rfl habs, Res.bind_ok,
    incrStep_ok hp (by simp) (by simp) (by norm_num) rfl habs]
  rfl

theorem incr3 {p : Nat} (hp : p.Prime) {abs x y w P : Int} {l : Bool} (habs : 0 < abs) :
    forRange 3 (⟨[x + (((0 : Nat) : Int) + 1) - 3, y + (((1 : Nat) : Int) + 1) - 3, w + (((2 : Nat) : Int) + 1) - 3],
      [x, y, w], P, l⟩ : PrecSt) (incrStep p 3 abs) =
    .ok ⟨[max x abs + (((0 : Nat) : Int) + 1) - 3, max y abs + (((1 : Nat) : Int) + 1) - 3,
        max w abs + (((2 : Nat) : Int) + 1) - 3], [max x abs, max y abs, max w abs],
      max (max (max P (precNeeded p 3 0 (max x abs))) (precNeeded p 3 1 (max y abs))) (precNeeded p 3 2 (max w abs)),
      l⟩ := by
  simp only [forRange, Res.bind_ok]
  rw [incrStep_ok hp (by simp) (by simp) (by norm_num) rfl habs, Res.bind_ok,
    incrStep_ok hp (by simp) (by simp) (by norm_num) rfl habs, Res.bind_ok,
    incrStep_ok hp (by simp) (by simp) (by norm_num) rfl habs]
  rfl

/-- The number of terms, the relative precision and the precision after a pass of the second loop. -/
def absN (n abs : Int) (i : Nat) : Int := if n - 1 - i < abs then abs else 0
def absR (n abs : Int) (i : Nat) : Int := if n - 1 - i < abs then abs + (i + 1) - n else 0
def absP (p : Nat) (n abs : Int) (i : Nat) (P : Int) : Int :=
  if n - 1 - i < abs then max P (precNeeded p n i abs) else P

theorem abs2 {p : Nat} (hp : p.Prime) {abs x y P : Int} {l : Bool} (habs : 0 < abs) :
    forRange 2 (⟨[x + (((0 : Nat) : Int) + 1) - 2, y + (((1 : Nat) : Int) + 1) - 2], [x, y], P, l⟩ : PrecSt)
      (absStep p 2 abs) =
    .ok ⟨[absR 2 abs 0, absR 2 abs 1], [absN 2 abs 0, absN 2 abs 1], absP p 2 abs 1 (absP p 2 abs 0 P),
      (l && decide (x ≤ abs)) && decide (y ≤ abs)⟩ := by
  simp only [forRange, Res.bind_ok]
  rw [absStep_ok hp (by simp) (by simp) rfl habs, Res.bind_ok, absStep_ok hp (by simp) (by simp) rfl habs]
  rfl

theorem abs3 {p : Nat} (hp : p.Prime) {abs x y w P : Int} {l : Bool} (habs : 0 < abs) :
    forRange 3 (⟨[x + (((0 : Nat) : Int) + 1) - 3, y + (((1 : Nat) : Int) + 1) - 3, w + (((2 : Nat) : Int) + 1) - 3],
      [x, y, w], P, l⟩ : PrecSt) (absStep p 3 abs) =
    .ok ⟨[absR 3 abs 0, absR 3 abs 1, absR 3 abs 2], [absN 3 abs 0, absN 3 abs 1, absN 3 abs 2],
      absP p 3 abs 2 (absP p 3 abs 1 (absP p 3 abs 0 P)),
      ((l && decide (x ≤ abs)) && decide (y ≤ abs)) && decide (w ≤ abs)⟩ := by
  simp only [forRange, Res.bind_ok]
  rw [absStep_ok hp (by simp) (by simp) rfl habs, Res.bind_ok, absStep_ok hp (by simp) (by simp) rfl habs, Res.bind_ok,
    absStep_ok hp (by simp) (by simp) rfl habs]
  rfl

theorem maxVec2 (a b : Int) : maxVec [a, b] = .ok (max a b) := by
  simp only [maxVec, List.foldl]
  congr 1
  split_ifs <;> omega

theorem maxVec3 (a b c : Int) : maxVec [a, b, c] = .ok (max (max a b) c) := by
  simp only [maxVec, List.foldl]
  congr 1
  split_ifs <;> omega

/-- The part after the loops, for the state they leave. -/
theorem choosePrec_end {p : Nat} {n abs : Int} {s : PrecSt} {c : List Int} {m : Int} (h : abs ≤ s.precision)
    (hm : maxVec s.r = .ok m) :
    (check (decide (abs ≤ s.precision)) >>= fun _ => maxVec s.r >>= fun m =>
      if (p : Int) < 2 * n + m then (.error .abort : Res ZetaPrec) else .ok ⟨s.precision, s.N, c, s.lift⟩) =
    if (p : Int) < 2 * n + m then .error .abort else .ok ⟨s.precision, s.N, c, s.lift⟩ := by
  rw [decide_eq_true h, check_true, Res.bind_ok, hm, Res.bind_ok]

theorem choosePrec_pos {p : Nat} {n d abs : Int} {increase : Bool} {a : DefaultArgs} {r : List Int}
    (ha : defaultArgs p n d = .ok a) (habs : 0 < abs)
    (hr : (List.range n.toNat).mapM (fun i => (do let Ni ← aget a.N i; .ok (Ni + ((i : Int) + 1) - n) : Res Int)) = .ok r)
    {s : PrecSt} {m : Int}
    (hs : (if increase then forRange n.toNat (⟨r, a.N, a.precision, true⟩ : PrecSt) (incrStep p n abs)
      else forRange n.toNat (⟨r, a.N, 1, true⟩ : PrecSt) (absStep p n abs)) = .ok s)
    (h : abs ≤ s.precision) (hm : maxVec s.r = .ok m) :
    choosePrec p n d abs increase =
      if (p : Int) < 2 * n + m then .error .abort else .ok ⟨s.precision, s.N, a.charpolyPrec, s.lift⟩ := by
  rw [choosePrec, ha, Res.bind_ok, if_pos habs, hr, Res.bind_ok]
  cases increase
  · simp only [Bool.false_eq_true, if_false] at hs ⊢
    rw [hs, Res.bind_ok]
    exact choosePrec_end h hm
  · simp only [if_true] at hs ⊢
    rw [hs, Res.bind_ok]
    exact choosePrec_end h hm

theorem forall_lt_two {P : Nat → Prop} (h0 : P 0) (h1 : P 1) : ∀ i : Nat, (i : Int) < 2 → P i := by
  intro i hi
  obtain rfl | rfl : i = 0 ∨ i = 1 := by omega
  · exact h0
  · exact h1

theorem forall_lt_three {P : Nat → Prop} (h0 : P 0) (h1 : P 1) (h2 : P 2) : ∀ i : Nat, (i : Int) < 3 → P i := by
  intro i hi
  obtain rfl | rfl | rfl : i = 0 ∨ i = 1 ∨ i = 2 := by omega
  · exact h0
  · exact h1
  · exact h2

theorem choosePrec_spec {p : Nat} (hp : p.Prime) {n d abs : Int} {increase : Bool} {a : DefaultArgs}
    (ha : defaultArgs p n d = .ok a) (habs : 0 < abs) :
    (∃ z, choosePrec p n d abs increase = .ok z ∧ PrecSpec p n abs increase a z) ∨
    (choosePrec p n d abs increase = .error .abort ∧ ∃ i : Nat, (i : Int) < n ∧
      (p : Int) < 2 * n + ((if increase then max (a.N.getD i 0) abs else abs) + (i + 1) - n)) := by
  obtain ⟨h0, ⟨rfl, x, y, hN, hx, hy, hP, -⟩ | ⟨rfl, x, y, w, hN, hx, hy, hw, hP, -⟩⟩ := tabNum_ok ha
  · have hr : (List.range (2 : Int).toNat).mapM (fun i => (do let Ni ← aget a.N i; .ok (Ni + ((i : Int) + 1) - 2) : Res Int))
        = .ok [x + (((0 : Nat) : Int) + 1) - 2, y + (((1 : Nat) : Int) + 1) - 2] := by rw [hN]; rfl
    cases increase
    · have hs := abs2 hp (x := x) (y := y) (P := 1) (l := true) habs
      have hg := precNeeded_ge hp (n := 2) (i := 1) (N := abs) (by norm_num) (by omega)
      have e1 : absN 2 abs 1 = abs := if_pos (by norm_num; omega)
      have e2 : absR 2 abs 1 = abs := by rw [absR, if_pos (by norm_num; omega)]; norm_num
      have e3 : ∀ P, absP p 2 abs 1 P = max P (precNeeded p 2 1 abs) := fun P => if_pos (by norm_num; omega)
      simp only [e1, e2, e3] at hs
      rw [← hN] at hs
      have hc := choosePrec_pos (increase := false) ha habs hr hs (by show abs ≤ max _ _; omega) (maxVec2 _ _)
      rw [hc]
      have a0 : absN 2 abs 0 = if 1 < abs then abs else 0 := by simp [absN]
      have a1 : absR 2 abs 0 = if 1 < abs then abs - 1 else 0 := by
        simp only [absR]; norm_num; split_ifs <;> omega
      have a2 : absP p 2 abs 0 1 = if 1 < abs then max 1 (precNeeded p 2 0 abs) else 1 := by simp [absP]
      by_cases hlt : (p : Int) < 2 * 2 + max (absR 2 abs 0) abs
      · rw [if_pos hlt]
        refine Or.inr ⟨rfl, 1, by norm_num, ?_⟩
        rw [a1] at hlt
        simp only [Bool.false_eq_true, if_false]
        push_cast
        split_ifs at hlt <;> omega
      · rw [if_neg hlt]
        rw [a1] at hlt
        refine Or.inl ⟨_, rfl, ?_⟩
        constructor
        · rfl
        · rfl
        · show abs ≤ max _ _; omega
        · refine forall_lt_two ?_ ?_
          · show 0 < absN 2 abs 0 → precNeeded p 2 0 (absN 2 abs 0) ≤ max (absP p 2 abs 0 1) _
            rw [a0, a2]; split_ifs <;> omega
          · exact fun _ => le_max_right _ _
        · refine forall_lt_two ?_ ?_
          · show absN 2 abs 0 = _; rw [a0]; norm_num
          · show abs = _; norm_num; omega
        · refine forall_lt_two ?_ ?_
          · show 2 * 2 + (absN 2 abs 0 + _ - 2) ≤ _; rw [a0]; push_cast; split_ifs at hlt ⊢ <;> omega
          · show 2 * 2 + (abs + _ - 2) ≤ _; push_cast; split_ifs at hlt <;> omega
        · rw [hN]
          show ((true && decide (x ≤ abs)) && decide (y ≤ abs)) = true ↔ _
          simp only [Bool.true_and, Bool.and_eq_true, decide_eq_true_eq, Bool.false_eq_true, false_or]
          exact ⟨fun h => forall_lt_two h.1 h.2, fun h => ⟨h 0 (by norm_num), h 1 (by norm_num)⟩⟩
        · intro h
          change ((true && decide (x ≤ abs)) && decide (y ≤ abs)) = true at h
          simp only [Bool.true_and, Bool.and_eq_true, decide_eq_true_eq] at h
          have hM := hP abs h.1 h.2 (by split_ifs at hlt <;> omega)
          refine ⟨?_, ?_⟩
          · show a.precision ≤ max _ (precNeeded p 2 1 abs); omega
          · rw [hN]
            refine forall_lt_two ?_ h.2
            show x ≤ absN 2 abs 0
            rw [a0]; split_ifs <;> omega
    · have hs := incr2 hp (x := x) (y := y) (P := a.precision) (l := true) habs
      have hg := precNeeded_ge hp (n := 2) (i := 1) (N := max y abs) (by norm_num) (by omega)
      rw [← hN] at hs
      have hc := choosePrec_pos (increase := true) ha habs hr hs (by show abs ≤ max _ _; omega) (maxVec2 _ _)
      rw [hc]
      by_cases hlt : (p : Int) < 2 * 2 + max (max x abs + (((0 : Nat) : Int) + 1) - 2) (max y abs + (((1 : Nat) : Int) + 1) - 2)
      · rw [if_pos hlt]
        refine Or.inr ⟨rfl, ?_⟩
        rw [hN]
        rcases le_total (max x abs + (((0 : Nat) : Int) + 1) - 2) (max y abs + (((1 : Nat) : Int) + 1) - 2) with hle | hle
        · rw [max_eq_right hle] at hlt
          exact ⟨1, by norm_num, hlt⟩
        · rw [max_eq_left hle] at hlt
          exact ⟨0, by norm_num, hlt⟩
      · rw [if_neg hlt]
        refine Or.inl ⟨_, rfl, ?_⟩
        constructor
        · rfl
        · rfl
        · show abs ≤ max _ _; omega
        · refine forall_lt_two ?_ ?_
          · exact fun _ => le_trans (le_max_right _ _) (le_max_left _ _)
          · exact fun _ => le_max_right _ _
        · rw [hN]; exact forall_lt_two rfl rfl
        · refine forall_lt_two ?_ ?_
          · exact le_trans (add_le_add_right (le_max_left _ _) _) (not_lt.1 hlt)
          · exact le_trans (add_le_add_right (le_max_right _ _) _) (not_lt.1 hlt)
        · exact ⟨fun _ => Or.inl rfl, fun _ => rfl⟩
        · intro _
          rw [hN]
          exact ⟨le_trans (le_max_left _ _) (le_max_left _ _), forall_lt_two (le_max_left _ _) (le_max_left _ _)⟩
  · have hr : (List.range (3 : Int).toNat).mapM (fun i => (do let Ni ← aget a.N i; .ok (Ni + ((i : Int) + 1) - 3) : Res Int))
        = .ok [x + (((0 : Nat) : Int) + 1) - 3, y + (((1 : Nat) : Int) + 1) - 3, w + (((2 : Nat) : Int) + 1) - 3] := by
      rw [hN]; rfl
    cases increase
    · have hs := abs3 hp (x := x) (y := y) (w := w) (P := 1) (l := true) habs
      have hg := precNeeded_ge hp (n := 3) (i := 2) (N := abs) (by norm_num) (by omega)
      have e1 : absN 3 abs 2 = abs := if_pos (by norm_num; omega)
      have e2 : absR 3 abs 2 = abs := by rw [absR, if_pos (by norm_num; omega)]; norm_num
      have e3 : ∀ P, absP p 3 abs 2 P = max P (precNeeded p 3 2 abs) := fun P => if_pos (by norm_num; omega)
      simp only [e1, e2, e3] at hs
      rw [← hN] at hs
      have hc := choosePrec_pos (increase := false) ha habs hr hs (by show abs ≤ max _ _; omega) (maxVec3 _ _ _)
      rw [hc]
      have a0 : absN 3 abs 0 = if 2 < abs then abs else 0 := by simp [absN]
      have b0 : absN 3 abs 1 = if 1 < abs then abs else 0 := by simp [absN]
      have a1 : absR 3 abs 0 = if 2 < abs then abs - 2 else 0 := by
        simp only [absR]; norm_num; split_ifs <;> omega
      have b1 : absR 3 abs 1 = if 1 < abs then abs - 1 else 0 := by
        simp only [absR]; norm_num; split_ifs <;> omega
      have a2 : absP p 3 abs 0 1 = if 2 < abs then max 1 (precNeeded p 3 0 abs) else 1 := by simp [absP]
      have b2 : ∀ P, absP p 3 abs 1 P = if 1 < abs then max P (precNeeded p 3 1 abs) else P := by
        intro P; simp [absP]
      by_cases hlt : (p : Int) < 2 * 3 + max (max (absR 3 abs 0) (absR 3 abs 1)) abs
      · rw [if_pos hlt]
        refine Or.inr ⟨rfl, 2, by norm_num, ?_⟩
        rw [a1, b1] at hlt
        simp only [Bool.false_eq_true, if_false]
        push_cast
        split_ifs at hlt <;> omega
      · rw [if_neg hlt]
        rw [a1, b1] at hlt
        refine Or.inl ⟨_, rfl, ?_⟩
        constructor
        · rfl
        · rfl
        · show abs ≤ max _ _; omega
        · refine forall_lt_three ?_ ?_ ?_
          · show 0 < absN 3 abs 0 → precNeeded p 3 0 (absN 3 abs 0) ≤ max (absP p 3 abs 1 (absP p 3 abs 0 1)) _
            rw [a0, a2, b2]; split_ifs <;> omega
          · show 0 < absN 3 abs 1 → precNeeded p 3 1 (absN 3 abs 1) ≤ max (absP p 3 abs 1 (absP p 3 abs 0 1)) _
            rw [b0, b2]; split_ifs <;> omega
          · exact fun _ => le_max_right _ _
        · refine forall_lt_three ?_ ?_ ?_
          · show absN 3 abs 0 = _; rw [a0]; norm_num
          · show absN 3 abs 1 = _; rw [b0]; norm_num
          · show abs = _; norm_num; omega
        · refine forall_lt_three ?_ ?_ ?_
          · show 2 * 3 + (absN 3 abs 0 + _ - 3) ≤ _; rw [a0]; push_cast; split_ifs at hlt ⊢ <;> omega
          · show 2 * 3 + (absN 3 abs 1 + _ - 3) ≤ _; rw [b0]; push_cast; split_ifs at hlt ⊢ <;> omega
          · show 2 * 3 + (abs + _ - 3) ≤ _; push_cast; split_ifs at hlt <;> omega
        · rw [hN]
          show (((true && decide (x ≤ abs)) && decide (y ≤ abs)) && decide (w ≤ abs)) = true ↔ _
          simp only [Bool.true_and, Bool.and_eq_true, decide_eq_true_eq, Bool.false_eq_true, false_or]
          exact ⟨fun h => forall_lt_three h.1.1 h.1.2 h.2,
            fun h => ⟨⟨h 0 (by norm_num), h 1 (by norm_num)⟩, h 2 (by norm_num)⟩⟩
        · intro h
          change (((true && decide (x ≤ abs)) && decide (y ≤ abs)) && decide (w ≤ abs)) = true at h
          simp only [Bool.true_and, Bool.and_eq_true, decide_eq_true_eq] at h
          have hM := hP abs h.1.1 h.1.2 h.2 (by split_ifs at hlt <;> omega)
          refine ⟨?_, ?_⟩
          · show a.precision ≤ max _ (precNeeded p 3 2 abs); omega
          · rw [hN]
            refine forall_lt_three ?_ ?_ h.2
            · show x ≤ absN 3 abs 0
              rw [a0]; split_ifs <;> omega
            · show y ≤ absN 3 abs 1
              rw [b0]; split_ifs <;> omega
    · have hs := incr3 hp (x := x) (y := y) (w := w) (P := a.precision) (l := true) habs
      have hg := precNeeded_ge hp (n := 3) (i := 2) (N := max w abs) (by norm_num) (by omega)
      rw [← hN] at hs
      have hc := choosePrec_pos (increase := true) ha habs hr hs (by show abs ≤ max _ _; omega) (maxVec3 _ _ _)
      rw [hc]
      by_cases hlt : (p : Int) < 2 * 3 + max (max (max x abs + (((0 : Nat) : Int) + 1) - 3)
          (max y abs + (((1 : Nat) : Int) + 1) - 3)) (max w abs + (((2 : Nat) : Int) + 1) - 3)
      · rw [if_pos hlt]
        refine Or.inr ⟨rfl, ?_⟩
        rw [hN]
        by_contra hcon
        push Not at hcon
        have c0 : 2 * 3 + (max x abs + (((0 : Nat) : Int) + 1) - 3) ≤ (p : Int) := hcon 0 (by norm_num)
        have c1 : 2 * 3 + (max y abs + (((1 : Nat) : Int) + 1) - 3) ≤ (p : Int) := hcon 1 (by norm_num)
        have c2 : 2 * 3 + (max w abs + (((2 : Nat) : Int) + 1) - 3) ≤ (p : Int) := hcon 2 (by norm_num)
        omega
      · rw [if_neg hlt]
        refine Or.inl ⟨_, rfl, ?_⟩
        constructor
        · rfl
        · rfl
        · show abs ≤ max _ _; omega
        · refine forall_lt_three ?_ ?_ ?_
          · exact fun _ => le_trans (le_trans (le_max_right _ _) (le_max_left _ _)) (le_max_left _ _)
          · exact fun _ => le_trans (le_max_right _ _) (le_max_left _ _)
          · exact fun _ => le_max_right _ _
        · rw [hN]; exact forall_lt_three rfl rfl rfl
        · refine forall_lt_three ?_ ?_ ?_
          · exact le_trans (add_le_add_right (le_trans (le_max_left _ _) (le_max_left _ _)) _) (not_lt.1 hlt)
          · exact le_trans (add_le_add_right (le_trans (le_max_right _ _) (le_max_left _ _)) _) (not_lt.1 hlt)
          · exact le_trans (add_le_add_right (le_max_right _ _) _) (not_lt.1 hlt)
        · exact ⟨fun _ => Or.inl rfl, fun _ => rfl⟩
        · intro _
          rw [hN]
          exact ⟨le_trans (le_trans (le_max_left _ _) (le_max_left _ _)) (le_max_left _ _),
            forall_lt_three (le_max_left _ _) (le_max_left _ _) (le_max_left _ _)⟩

/-- For large `p`. -/
theorem precNeeded_big {p : Nat} (hp : p.Prime) {n : Int} {i : Nat} {N : Int} (hN : 1 ≤ N) (h : (i : Int) + N ≤ p) :
    precNeeded p n i N = 2 * N + i - n := by
  have h1 : 1 ≤ p := hp.one_le
  obtain ⟨k, hk⟩ : ∃ k : Nat, (i : Int) + N = k + 1 := ⟨(i + N - 1).toNat, by omega⟩
  have e : (p * ((i : Int) + N) - 1).toNat = p * k + (p - 1) := by
    rw [hk]
    have h3 : ((p * k + (p - 1) : ℕ) : ℤ) = p * (k + 1) - 1 := by push_cast [h1]; ring
    rw [← h3]
    rfl
  haveI := Fact.mk hp
  have hv : padicValNat p (p * ((i : Int) + N) - 1).toNat.factorial = k := by
    rw [e, padicValNat_factorial_mul_add k (by omega), padicValNat_factorial_mul]
    have : padicValNat p k.factorial = 0 := by
      apply padicValNat.eq_zero_of_not_dvd
      rw [hp.dvd_factorial]
      omega
    omega
  rw [precNeeded, hv]
  omega

theorem default_needed {p : Nat} (hp : p.Prime) {n d : Int} {a : DefaultArgs} (ha : defaultArgs p n d = .ok a)
    (hsmall : ∀ i : Nat, (i : Int) < n → 2 * n + (a.N.getD i 0 + (i + 1) - n) ≤ p) :
    ∀ i : Nat, (i : Int) < n → 0 < a.N.getD i 0 → precNeeded p n i (a.N.getD i 0) ≤ a.precision := by
  obtain ⟨h0, ⟨rfl, x, y, hN, hx, hy, -, hQ⟩ | ⟨rfl, x, y, w, hN, hx, hy, hw, -, hQ⟩⟩ := tabNum_ok ha
  · rw [hN] at hsmall ⊢
    have s0 : 2 * 2 + (x + (((0 : Nat) : Int) + 1) - 2) ≤ (p : Int) := hsmall 0 (by norm_num)
    have s1 : 2 * 2 + (y + (((1 : Nat) : Int) + 1) - 2) ≤ (p : Int) := hsmall 1 (by norm_num)
    push_cast at s0 s1
    obtain ⟨q0, q1⟩ := hQ (by omega) (by omega)
    refine forall_lt_two ?_ ?_
    · show 0 < x → precNeeded p 2 0 x ≤ _
      intro h; rw [precNeeded_big hp (by omega) (by push_cast; omega)]; push_cast; omega
    · show 0 < y → precNeeded p 2 1 y ≤ _
      intro h; rw [precNeeded_big hp (by omega) (by push_cast; omega)]; push_cast; omega
  · rw [hN] at hsmall ⊢
    have s0 : 2 * 3 + (x + (((0 : Nat) : Int) + 1) - 3) ≤ (p : Int) := hsmall 0 (by norm_num)
    have s1 : 2 * 3 + (y + (((1 : Nat) : Int) + 1) - 3) ≤ (p : Int) := hsmall 1 (by norm_num)
    have s2 : 2 * 3 + (w + (((2 : Nat) : Int) + 1) - 3) ≤ (p : Int) := hsmall 2 (by norm_num)
    push_cast at s0 s1 s2
    obtain ⟨q0, q1, q2⟩ := hQ (by omega) (by omega) (by omega)
    refine forall_lt_three ?_ ?_ ?_
    · show 0 < x → precNeeded p 3 0 x ≤ _
      intro h; rw [precNeeded_big hp (by omega) (by push_cast; omega)]; push_cast; omega
    · show 0 < y → precNeeded p 3 1 y ≤ _
      intro h; rw [precNeeded_big hp (by omega) (by push_cast; omega)]; push_cast; omega
    · show 0 < w → precNeeded p 3 2 w ≤ _
      intro h; rw [precNeeded_big hp (by omega) (by push_cast; omega)]; push_cast; omega

theorem charpolyPrec_length {p : Nat} (hp : p.Prime) {n d : Int} {a : DefaultArgs} (ha : defaultArgs p n d = .ok a) :
    ∃ b : Nat, a.charpolyPrec.length = b + 1 ∧ d * b = (d - 1) ^ (n + 1).toNat + (-1) ^ (n + 1).toNat * (d - 1) := by
  by_cases h3 : 3 ≤ p
  · obtain ⟨-, -, -, b, -, h1, h2, -⟩ := C12_default_args_partial p h3 n d a ha
    exact ⟨b, h1, h2⟩
  · obtain rfl : p = 2 := by have := hp.two_le; omega
    have h32 : defaultArgs (3 : Nat) n d = .ok a := by
      rw [← ha]
      have hmem : (n, d) ∈ defaultPairs := by
        by_contra hn
        rw [(C12_domain _ n d).2 hn] at ha
        cases ha
      simp only [defaultPairs, List.mem_cons, Prod.mk.injEq, List.not_mem_nil, or_false] at hmem
      obtain ⟨rfl, rfl⟩ | ⟨rfl, rfl⟩ | ⟨rfl, rfl⟩ | ⟨rfl, rfl⟩ | ⟨rfl, rfl⟩ | ⟨rfl, rfl⟩ | ⟨rfl, rfl⟩ | ⟨rfl, rfl⟩ |
        ⟨rfl, rfl⟩ | ⟨rfl, rfl⟩ := hmem <;> rfl
    obtain ⟨-, -, -, b, -, h1, h2, -⟩ := C12_default_args_partial 3 le_rfl n d a h32
    exact ⟨b, h1, h2⟩

end Verif
