import Verif.Model.Poly
import Verif.Spec.Poly
import Verif.Lemmas.Map
import Verif.Lemmas.Tools
import Verif.Lemmas.Matrix
import Mathlib.Tactic.Ring
import Mathlib.Data.Nat.Choose.Sum

namespace Verif

set_option linter.unusedSectionVars false
set_option linter.unusedSimpArgs false

open Spec MvPolynomial

/-- A fold whose steps never fail while an invariant holds. -/
theorem foldlM_ok {α σ : Type} (f : σ → α → Res σ) (g : σ → α → σ) (P : σ → Prop)
    (l : List α) (s : σ) (h0 : P s)
    (h : ∀ s x, x ∈ l → P s → f s x = .ok (g s x) ∧ P (g s x)) :
    l.foldlM f s = .ok (l.foldl g s) ∧ P (l.foldl g s) := by
  induction l generalizing s with
  | nil => exact ⟨rfl, h0⟩
  | cons x l ih =>
    obtain ⟨h1, h2⟩ := h s x (by simp) h0
    rw [List.foldlM_cons, h1, Res.bind_ok, List.foldl_cons]
    exact ih _ h2 (fun s y hy hp => h s y (List.mem_cons_of_mem _ hy) hp)

variable {R : Type} [CommRing R]

theorem Spec.WFPoly.keyLen {n : Nat} {m : MonMap R} (h : WFPoly n m) : MonMap.KeyLen n m := by
  intro k hk
  simp only [MonMap.keys, List.mem_map] at hk
  obtain ⟨e, he, rfl⟩ := hk
  exact (h.1 e he).1

theorem Spec.WFPoly.sorted {n : Nat} {m : MonMap R} (h : WFPoly n m) : MonMap.Sorted m := h.2

theorem Spec.WFPoly.nil (n : Nat) : WFPoly n ([] : MonMap R) := by
  simp [WFPoly]

theorem mem_set {m : MonMap R} {k : IVec} {v : R} {e : IVec × R} (h : e ∈ MonMap.set m k v) :
    e = (k, v) ∨ e ∈ m := by
  induction m with
  | nil => simpa [MonMap.set] using h
  | cons e' m ih =>
    obtain ⟨k', v'⟩ := e'
    rw [MonMap.set] at h
    split at h
    · rcases List.mem_cons.1 h with h | h
      · exact Or.inl h
      · exact Or.inr (List.mem_cons_of_mem _ h)
    · split at h
      · rcases List.mem_cons.1 h with h | h
        · exact Or.inl h
        · exact Or.inr h
      · rcases List.mem_cons.1 h with h | h
        · exact Or.inr (by rw [h]; simp)
        · rcases ih h with h | h
          · exact Or.inl h
          · exact Or.inr (List.mem_cons_of_mem _ h)

theorem Spec.WFPoly.set {n : Nat} (hn : 0 < n) {m : MonMap R} (h : WFPoly n m) {k : IVec}
    (hk : k.length = n) (hk' : NonNeg k) (v : R) : WFPoly n (MonMap.set m k v) := by
  refine ⟨?_, MonMap.sorted_set hn h.keyLen h.sorted hk v⟩
  intro e he
  rcases mem_set he with rfl | he
  · exact ⟨hk, hk'⟩
  · exact h.1 e he

@[simp] theorem toPoly_nil (n : Nat) : toPoly n ([] : MonMap R) = 0 := by simp [toPoly]

theorem toPoly_cons (n : Nat) (e : IVec × R) (m : MonMap R) :
    toPoly n (e :: m) = monomial (expo n e.1) e.2 + toPoly n m := by simp [toPoly]

/-- Writing a coefficient changes the polynomial by the difference. -/
theorem toPoly_set {n : Nat} (hn : 0 < n) {m : MonMap R} (h : WFPoly n m) {k : IVec}
    (hk : k.length = n) (v : R) :
    toPoly n (MonMap.set m k v) = toPoly n m + monomial (expo n k) (v - MonMap.get m k) := by
  induction m with
  | nil => simp [MonMap.set, toPoly_cons, MonMap.get_nil]
  | cons e m ih =>
    obtain ⟨k', v'⟩ := e
    have hwf : WFPoly n m := ⟨fun e he => h.1 e (List.mem_cons_of_mem _ he), (List.pairwise_cons.1 h.2).2⟩
    have hk' : k'.length = n := (h.1 (k', v') (by simp)).1
    have hne : k ≠ [] := by rintro rfl; simp at hk; omega
    rw [MonMap.set]
    split
    · next he =>
      subst he
      simp only [toPoly_cons, MonMap.get, MonMap.find?_cons, if_true, Option.getD_some, map_sub]
      ring
    · next he =>
      split
      · next hlt =>
        rw [keyLt_iff (by omega) hne] at hlt
        have hno : MonMap.find? m k = none := by
          cases hf : MonMap.find? m k with
          | none => rfl
          | some y =>
            have hmem : k ∈ MonMap.keys m := (MonMap.mem_keys_iff m k).2 ⟨y, hf⟩
            exact absurd (hlt.trans ((List.pairwise_cons.1 h.2).1 k hmem)) (LexLt.irrefl k)
        simp only [toPoly_cons, MonMap.get, MonMap.find?_cons, if_neg he, hno, Option.getD_none,
          sub_zero]
        ring
      · simp only [toPoly_cons, ih hwf, MonMap.get, MonMap.find?_cons, if_neg he]
        ring

theorem toPoly_accum {n : Nat} (hn : 0 < n) {m : MonMap R} (h : WFPoly n m) {k : IVec}
    (hk : k.length = n) (c : R) :
    toPoly n (MonMap.accum m k c) = toPoly n m + monomial (expo n k) c := by
  unfold MonMap.accum
  cases hf : MonMap.find? m k with
  | none => simp [toPoly_set hn h hk, MonMap.get, hf]
  | some v => simp [toPoly_set hn h hk, MonMap.get, hf]

theorem Spec.WFPoly.accum {n : Nat} (hn : 0 < n) {m : MonMap R} (h : WFPoly n m) {k : IVec}
    (hk : k.length = n) (hk' : NonNeg k) (c : R) : WFPoly n (MonMap.accum m k c) := by
  unfold MonMap.accum
  split
  · exact h.set hn hk hk' _
  · exact h.set hn hk hk' _

theorem expo_apply (n : Nat) (k : IVec) (i : Fin n) : expo n k i = (k.getD i 0).toNat := rfl

theorem nonNeg_getD {k : IVec} (h : NonNeg k) (i : Nat) : 0 ≤ k.getD i 0 := by
  rw [List.getD_eq_getElem?_getD]
  cases hi : k[i]? with
  | none => simp
  | some x => exact h x (List.mem_of_getElem? hi)

theorem getD_zipWith_add (a b : IVec) (h : a.length = b.length) (i : Nat) :
    (List.zipWith (· + ·) a b).getD i 0 = a.getD i 0 + b.getD i 0 := by
  simp only [List.getD_eq_getElem?_getD, List.getElem?_zipWith]
  by_cases hi : i < a.length
  · have hb : i < b.length := by omega
    simp [hi, hb]
  · have hb : ¬ i < b.length := by omega
    simp [hi, hb, List.getElem?_eq_none (Nat.le_of_not_lt hi), List.getElem?_eq_none (Nat.le_of_not_lt hb)]

theorem expo_add (n : Nat) (a b : IVec) (h : a.length = b.length) (ha : NonNeg a) (hb : NonNeg b) :
    expo n (List.zipWith (· + ·) a b) = expo n a + expo n b := by
  ext i
  rw [Finsupp.add_apply, expo_apply, expo_apply, expo_apply, getD_zipWith_add a b h,
    Int.toNat_add (nonNeg_getD ha i) (nonNeg_getD hb i)]

theorem nonNeg_add {a b : IVec} (ha : NonNeg a) (hb : NonNeg b) :
    NonNeg (List.zipWith (· + ·) a b) := by
  intro x hx
  obtain ⟨i, hi, rfl⟩ := List.mem_iff_getElem.1 hx
  simp only [List.length_zipWith] at hi
  rw [List.getElem_zipWith]
  have h1 := ha a[i] (List.getElem_mem (by omega))
  have h2 := hb b[i] (List.getElem_mem (by omega))
  omega

/-- Two well-formed maps denote the same polynomial only if they hold the same coefficients. -/
theorem expo_inj {n : Nat} {a b : IVec} (ha : a.length = n) (hb : b.length = n) (ha' : NonNeg a)
    (hb' : NonNeg b) (h : expo n a = expo n b) : a = b := by
  apply List.ext_getElem (by omega)
  intro i h1 h2
  have := DFunLike.congr_fun h ⟨i, by omega⟩
  rw [expo_apply, expo_apply] at this
  simp only [List.getD_eq_getElem?_getD, List.getElem?_eq_getElem h1, List.getElem?_eq_getElem h2,
    Option.getD_some] at this
  have e1 := ha' a[i] (List.getElem_mem h1)
  have e2 := hb' b[i] (List.getElem_mem h2)
  omega

theorem coeff_toPoly {n : Nat} {m : MonMap R} (h : WFPoly n m) {k : IVec} (hk : k.length = n)
    (hk' : NonNeg k) : coeff (expo n k) (toPoly n m) = MonMap.get m k := by
  induction m with
  | nil => simp [MonMap.get_nil]
  | cons e m ih =>
    obtain ⟨k', v'⟩ := e
    have hwf : WFPoly n m := ⟨fun e he => h.1 e (List.mem_cons_of_mem _ he), (List.pairwise_cons.1 h.2).2⟩
    have hk1 := h.1 (k', v') (by simp)
    rw [toPoly_cons, coeff_add, ih hwf, coeff_monomial]
    simp only [MonMap.get, MonMap.find?_cons]
    by_cases he : k = k'
    · subst he
      have hno : MonMap.find? m k = none := by
        cases hf : MonMap.find? m k with
        | none => rfl
        | some y =>
          have hmem : k ∈ MonMap.keys m := (MonMap.mem_keys_iff m k).2 ⟨y, hf⟩
          exact absurd ((List.pairwise_cons.1 h.2).1 k hmem) (LexLt.irrefl k)
      simp [hno]
    · rw [if_neg he, if_neg]
      · simp
      · intro h'
        exact he (expo_inj hk1.1 hk hk1.2 hk' h').symm

/-- The accumulating double loop multiplies polynomials. -/
theorem mulMaps_ok {n : Nat} (hn : 0 < n) {H X : MonMap R} (hH : WFPoly n H) (hX : WFPoly n X) :
    ∃ r, mulMaps H X = .ok r ∧ WFPoly n r ∧ toPoly n r = toPoly n H * toPoly n X := by
  -- inner loop
  have inner : ∀ (kH : IVec) (cH : R), kH.length = n → NonNeg kH → ∀ (X : MonMap R),
      (∀ e ∈ X, e.1.length = n ∧ NonNeg e.1) → ∀ acc : MonMap R, WFPoly n acc →
      ∃ r, X.foldlM (fun acc eX => do
          let mon ← addVec eX.1 kH
          pure (MonMap.accum acc mon (eX.2 * cH))) acc = .ok r ∧ WFPoly n r ∧
        toPoly n r = toPoly n acc + monomial (expo n kH) cH * toPoly n X := by
    intro kH cH hl hnn X
    induction X with
    | nil => intro _ acc hacc; exact ⟨acc, rfl, hacc, by simp⟩
    | cons e X ih =>
      intro hX acc hacc
      have he := hX e (by simp)
      have hlen : e.1.length = kH.length := by omega
      have hsum : (List.zipWith (· + ·) e.1 kH).length = n := by simp; omega
      obtain ⟨r, h1, h2, h3⟩ := ih (fun x hx => hX x (List.mem_cons_of_mem _ hx))
        (MonMap.accum acc (List.zipWith (· + ·) e.1 kH) (e.2 * cH))
        (hacc.accum hn hsum (nonNeg_add he.2 hnn) _)
      refine ⟨r, ?_, h2, ?_⟩
      · rw [List.foldlM_cons]
        simp only [addVec, hlen, decide_true, check_true, Res.bind_ok, Res.pure_eq]
        exact h1
      · rw [h3, toPoly_accum hn hacc hsum, toPoly_cons, expo_add n _ _ hlen he.2 hnn, mul_add,
          monomial_mul, add_comm (expo n kH), mul_comm cH]
        ring
  have outer : ∀ (H : MonMap R), (∀ e ∈ H, e.1.length = n ∧ NonNeg e.1) →
      ∀ acc : MonMap R, WFPoly n acc →
      ∃ r, H.foldlM (fun acc eH => X.foldlM (fun acc eX => do
          let mon ← addVec eX.1 eH.1
          pure (MonMap.accum acc mon (eX.2 * eH.2))) acc) acc = .ok r ∧ WFPoly n r ∧
        toPoly n r = toPoly n acc + toPoly n H * toPoly n X := by
    intro H
    induction H with
    | nil => intro _ acc hacc; exact ⟨acc, rfl, hacc, by simp⟩
    | cons e H ih =>
      intro hH acc hacc
      have he := hH e (by simp)
      obtain ⟨r1, a1, a2, a3⟩ := inner e.1 e.2 he.1 he.2 X hX.1 acc hacc
      obtain ⟨r, h1, h2, h3⟩ := ih (fun x hx => hH x (List.mem_cons_of_mem _ hx)) r1 a2
      refine ⟨r, ?_, h2, ?_⟩
      · rw [List.foldlM_cons, a1]; exact h1
      · rw [h3, a3, toPoly_cons]; ring
  obtain ⟨r, h1, h2, h3⟩ := outer H hH.1 [] (WFPoly.nil n)
  exact ⟨r, h1, h2, by rw [h3]; simp⟩

theorem mulPow_ok {n : Nat} (hn : 0 < n) {H X : MonMap R} (hH : WFPoly n H) (hX : WFPoly n X)
    (j : Nat) : ∃ r, mulPow H X j = .ok r ∧ WFPoly n r ∧
      toPoly n r = toPoly n H * toPoly n X ^ j := by
  induction j with
  | zero => exact ⟨H, rfl, hH, by simp⟩
  | succ j ih =>
    obtain ⟨r, h1, h2, h3⟩ := ih
    obtain ⟨r', a1, a2, a3⟩ := mulMaps_ok hn h2 hX
    exact ⟨r', by rw [mulPow, h1]; exact a1, a2, by rw [a3, h3, pow_succ]; ring⟩

theorem unitVec_length (n i : Nat) : (unitVec n i).length = n := by simp [unitVec]

theorem nonNeg_replicate (n : Nat) : NonNeg (List.replicate n 0) := by
  intro x hx; rw [List.eq_of_mem_replicate hx]

theorem nonNeg_set {k : IVec} (h : NonNeg k) (i : Nat) {x : Int} (hx : 0 ≤ x) :
    NonNeg (k.set i x) := by
  intro y hy
  rcases List.mem_or_eq_of_mem_set hy with hy | rfl
  · exact h y hy
  · exact hx

theorem unitVec_nonNeg (n i : Nat) : NonNeg (unitVec n i) :=
  nonNeg_set (nonNeg_replicate n) i (by norm_num)

theorem getD_set (k : IVec) (i j : Nat) (x : Int) (hi : i < k.length) :
    (k.set i x).getD j 0 = if j = i then x else k.getD j 0 := by
  simp only [List.getD_eq_getElem?_getD, List.getElem?_set]
  by_cases h : i = j
  · subst h; simp [hi]
  · simp [h, Ne.symm h]

theorem getD_replicate_zero (n j : Nat) : (List.replicate n (0 : Int)).getD j 0 = 0 := by
  rw [List.getD_eq_getElem?_getD, List.getElem?_replicate]
  split <;> rfl

theorem expo_zero (n : Nat) (m : Nat) : expo n (List.replicate m 0) = 0 := by
  ext i; rw [expo_apply, getD_replicate_zero]; rfl

theorem expo_set (n : Nat) (k : IVec) (i : Fin n) (x : Int) (hi : i.val < k.length)
    (h0 : k.getD i 0 = 0) :
    expo n (k.set i x) = expo n k + Finsupp.single i x.toNat := by
  ext j
  rw [Finsupp.add_apply, expo_apply, expo_apply, getD_set _ _ _ _ hi, Finsupp.single_apply]
  by_cases h : j = i
  · subst h; rw [h0]; simp
  · have : (j : ℕ) ≠ (i : ℕ) := fun h' => h (Fin.ext h')
    simp [this, Ne.symm h]

theorem expo_unitVec (n : Nat) (i : Fin n) : expo n (unitVec n i) = Finsupp.single i 1 := by
  unfold unitVec
  rw [expo_set _ _ _ _ (by simp) (getD_replicate_zero _ _), expo_zero]
  simp

/-- Assigning coefficients at pairwise distinct keys. -/
theorem foldl_set_ok {n : Nat} (hn : 0 < n) (key : Nat → IVec) (c : Nat → R) (m : Nat)
    (hk : ∀ j < m, (key j).length = n ∧ NonNeg (key j))
    (hinj : ∀ i j, i < m → j < m → key i = key j → i = j) :
    WFPoly n ((List.range m).foldl (fun acc j => MonMap.set acc (key j) (c j)) []) ∧
    toPoly n ((List.range m).foldl (fun acc j => MonMap.set acc (key j) (c j)) [])
      = ∑ j ∈ Finset.range m, monomial (expo n (key j)) (c j) ∧
    ∀ k, (∀ j < m, key j ≠ k) →
      MonMap.find? ((List.range m).foldl (fun acc j => MonMap.set acc (key j) (c j)) []) k = none := by
  induction m with
  | zero => exact ⟨WFPoly.nil n, by simp, by intro k _; rfl⟩
  | succ m ih =>
    obtain ⟨h1, h2, h3⟩ := ih (fun j hj => hk j (by omega)) (fun i j hi hj => hinj i j (by omega) (by omega))
    rw [List.range_succ, List.foldl_append, List.foldl_cons, List.foldl_nil]
    refine ⟨h1.set hn (hk m (by omega)).1 (hk m (by omega)).2 _, ?_, ?_⟩
    · rw [toPoly_set hn h1 (hk m (by omega)).1, h2, Finset.sum_range_succ]
      have : MonMap.get ((List.range m).foldl (fun acc j => MonMap.set acc (key j) (c j)) []) (key m)
          = 0 := by
        rw [MonMap.get, h3]
        · rfl
        · intro j hj he
          have := hinj j m (by omega) (by omega) he
          omega
      rw [this, sub_zero]
    · intro k hkk
      rw [MonMap.find?_set, if_neg (Ne.symm (hkk m (by omega)))]
      exact h3 k (fun j hj => hkk j (by omega))

theorem rowForm_ok {n : Nat} (hn : 0 < n) (M : CMat R) (i : Nat) :
    WFPoly n (rowForm n M i) ∧
      toPoly n (rowForm n M i) = ∑ j : Fin n, C (M.e i j) * X j := by
  obtain ⟨h1, h2, -⟩ := foldl_set_ok hn (unitVec n) (M.e i) n
    (fun j _ => ⟨unitVec_length n j, unitVec_nonNeg n j⟩)
    (by
      intro a b ha hb h
      have := congrArg (expo n) h
      rw [expo_unitVec n ⟨a, ha⟩, expo_unitVec n ⟨b, hb⟩] at this
      have := (Finsupp.single_left_injective (one_ne_zero)) this
      simpa using this)
  refine ⟨h1, ?_⟩
  unfold rowForm
  rw [h2, Finset.sum_range]
  refine Finset.sum_congr rfl (fun j _ => ?_)
  rw [expo_unitVec, C_mul_X_eq_monomial]

theorem monomial_expo_eq (n : Nat) (k : IVec) (c : R) :
    monomial (expo n k) c = C c * ∏ i : Fin n, X i ^ (k.getD i 0).toNat := by
  rw [monomial_eq, Finsupp.prod_fintype _ _ (by simp)]
  rfl

theorem substTerm_ok {n : Nat} (hn : 0 < n) (M : CMat R) (k : IVec) (c : R) (hk : k.length = n) :
    ∃ r, substTerm n M k c = .ok r ∧ WFPoly n r ∧
      toPoly n r = linSubst (fun i j : Fin n => M.e i j) (monomial (expo n k) c) := by
  have h0 : WFPoly n ([(List.replicate n 0, c)] : MonMap R) := by
    refine ⟨?_, by simp⟩
    intro e he
    rw [List.mem_singleton] at he
    subst he
    exact ⟨by simp, nonNeg_replicate n⟩
  obtain ⟨r, h1, h2, h3⟩ := forRange_inv (n := n) (s := ([(List.replicate n 0, c)] : MonMap R))
    (f := fun i H => mulPow H (rowForm n M i) (k.getD i 0).toNat)
    (fun i H => WFPoly n H ∧
      toPoly n H = C c * ∏ i' ∈ Finset.range i, toPoly n (rowForm n M i') ^ (k.getD i' 0).toNat)
    ⟨h0, by rw [toPoly_cons, expo_zero]; simp⟩
    (by
      intro i H hi ⟨w, e⟩
      obtain ⟨r, a1, a2, a3⟩ := mulPow_ok hn w (rowForm_ok hn M i).1 (k.getD i 0).toNat
      exact ⟨r, a1, a2, by rw [a3, e, Finset.prod_range_succ]; ring⟩)
  refine ⟨r, ?_, h2, ?_⟩
  · unfold substTerm
    simp only [hk, decide_true, check_true, Res.bind_ok]
    exact h1
  · rw [h3, monomial_expo_eq, map_mul, map_prod, Finset.prod_range]
    congr 1
    · rw [linSubst, aeval_C]; rfl
    · refine Finset.prod_congr rfl (fun i _ => ?_)
      rw [map_pow, (rowForm_ok hn M i).2, linSubst, aeval_X]

theorem foldl_accum_ok {n : Nat} (hn : 0 < n) (H : MonMap R)
    (hH : ∀ e ∈ H, e.1.length = n ∧ NonNeg e.1) (acc : MonMap R) (ha : WFPoly n acc) :
    WFPoly n (H.foldl (fun r e => MonMap.accum r e.1 e.2) acc) ∧
    toPoly n (H.foldl (fun r e => MonMap.accum r e.1 e.2) acc) = toPoly n acc + toPoly n H := by
  induction H generalizing acc with
  | nil => simpa using ha
  | cons e H ih =>
    have he := hH e (by simp)
    obtain ⟨h1, h2⟩ := ih (fun x hx => hH x (List.mem_cons_of_mem _ hx)) (MonMap.accum acc e.1 e.2)
      (ha.accum hn he.1 he.2 _)
    refine ⟨h1, ?_⟩
    rw [List.foldl_cons, h2, toPoly_accum hn ha he.1, toPoly_cons]; ring

/-- `change_of_variables` never fails on a well-formed polynomial and substitutes. -/
theorem changeOfVariables_ok {n : Nat} (hn : 0 < n) (f : MonMap R) (hf : WFPoly n f) (M : CMat R)
    (hr : M.rows = n) (hc : M.cols = n) :
    ∃ r, changeOfVariables f M = .ok r ∧ WFPoly n r ∧
      toPoly n r = linSubst (fun i j : Fin n => M.e i j) (toPoly n f) := by
  have key : ∀ (f : MonMap R), (∀ e ∈ f, e.1.length = n ∧ NonNeg e.1) →
      ∀ acc : MonMap R, WFPoly n acc →
      ∃ r, f.foldlM (fun result e => do
          let H ← substTerm n M e.1 e.2
          pure (H.foldl (fun result (eH : IVec × R) => MonMap.accum result eH.1 eH.2) result)) acc = .ok r ∧
        WFPoly n r ∧
        toPoly n r = toPoly n acc + linSubst (fun i j : Fin n => M.e i j) (toPoly n f) := by
    intro f
    induction f with
    | nil => intro _ acc ha; exact ⟨acc, rfl, ha, by simp⟩
    | cons e f ih =>
      intro hf acc ha
      have he := hf e (by simp)
      obtain ⟨H, a1, a2, a3⟩ := substTerm_ok hn M e.1 e.2 he.1
      obtain ⟨b1, b2⟩ := foldl_accum_ok hn H a2.1 acc ha
      obtain ⟨r, h1, h2, h3⟩ := ih (fun x hx => hf x (List.mem_cons_of_mem _ hx)) _ b1
      refine ⟨r, ?_, h2, ?_⟩
      · rw [List.foldlM_cons, a1]; exact h1
      · rw [h3, b2, a3, toPoly_cons, map_add]; ring
  obtain ⟨r, h1, h2, h3⟩ := key f hf.1 [] (WFPoly.nil n)
  refine ⟨r, ?_, h2, by rw [h3]; simp⟩
  unfold changeOfVariables
  rw [hr, hc]
  simp only [decide_true, check_true, Res.bind_ok]
  exact h1

/-! ### change_of_variables_monomial -/

theorem monomialExtended_ok (n : Nat) (i : Fin n) (u v : Int) (hu : 0 ≤ u)
    (hb : ∀ j, (u.toNat).choose j < 2 ^ 63) :
    ∃ X : MonMap Int, monomialExtended n i u v = .ok X ∧ WFPoly (n + 1) X ∧
      toPoly (n + 1) X
        = (MvPolynomial.X i.castSucc + C v * MvPolynomial.X (Fin.last n)) ^ u.toNat := by
  set key : Nat → IVec := fun j => ((List.replicate (n + 1) 0).set i (u - j)).set n (j : Int)
    with hkey
  set c : Nat → Int := fun j => ((u.toNat.choose j : Nat) : Int) * v ^ j with hc
  have hexpo : ∀ j, expo (n + 1) (key j)
      = Finsupp.single i.castSucc (u - j).toNat + Finsupp.single (Fin.last n) j := by
    intro j
    have hin : (i : ℕ) ≠ n := by omega
    have e1 := expo_set (n + 1) (List.replicate (n + 1) 0) i.castSucc (u - j) (by simp)
      (getD_replicate_zero _ _)
    have e2 := expo_set (n + 1) ((List.replicate (n + 1) 0).set i (u - j)) (Fin.last n) (j : Int)
      (by simp) (by
        rw [Fin.val_last, getD_set _ _ _ _ (by simp), if_neg (Ne.symm hin),
          getD_replicate_zero])
    simp only [Fin.val_last, Fin.val_castSucc] at e1 e2
    rw [hkey]
    simp only
    rw [e2, e1, expo_zero]
    simp
  have hkk : ∀ j < u.toNat + 1, (key j).length = n + 1 ∧ NonNeg (key j) := by
    intro j hj
    refine ⟨by simp [hkey], ?_⟩
    exact nonNeg_set (nonNeg_set (nonNeg_replicate _) _ (by omega)) _ (by omega)
  have hinj : ∀ a b, a < u.toNat + 1 → b < u.toNat + 1 → key a = key b → a = b := by
    intro a b _ _ h
    have : (key a).getD n 0 = (key b).getD n 0 := by rw [h]
    simp only [hkey] at this
    rw [getD_set _ _ _ _ (by simp), getD_set _ _ _ _ (by simp)] at this
    simpa using this
  obtain ⟨h1, h2, -⟩ := foldl_set_ok (R := Int) (Nat.succ_pos n) key c (u.toNat + 1) hkk hinj
  refine ⟨_, ?_, h1, ?_⟩
  · unfold monomialExtended
    rw [show (u + 1).toNat = u.toNat + 1 by omega]
    have : ∀ m, m ≤ u.toNat + 1 → forRange m ([] : MonMap Int) (fun j m => do
        let b ← binomial u j
        pure (MonMap.set m (((List.replicate (n + 1) 0).set i (u - j)).set n (j : Int)) (b * v ^ j)))
        = .ok ((List.range m).foldl (fun acc j => MonMap.set acc (key j) (c j)) []) := by
      intro m
      induction m with
      | zero => intro _; rfl
      | succ m ih =>
        intro hm
        rw [forRange, ih (by omega), Res.bind_ok]
        have hbin : binomial u m = .ok ((u.toNat.choose m : Nat) : Int) := by
          have := binomial_eq u.toNat m (by omega)
          rw [if_pos (by have := hb m; omega), convLong_small _ (hb m), Int.toNat_of_nonneg hu] at this
          exact this
        rw [hbin, List.range_succ, List.foldl_append]
        rfl
    exact this _ le_rfl
  · rw [h2, add_comm (MvPolynomial.X i.castSucc), add_pow]
    refine Finset.sum_congr rfl (fun j hj => ?_)
    rw [Finset.mem_range] at hj
    rw [hexpo j, mul_pow, ← C_pow, show (u - j).toNat = u.toNat - j by omega]
    rw [show (monomial (Finsupp.single i.castSucc (u.toNat - j) + Finsupp.single (Fin.last n) j)) (c j)
      = C (c j) * (MvPolynomial.X i.castSucc ^ (u.toNat - j) * MvPolynomial.X (Fin.last n) ^ j) by
        rw [X_pow_eq_monomial, X_pow_eq_monomial, monomial_mul, C_mul_monomial]; simp]
    simp only [hc, C_mul]
    rw [show (C ((u.toNat.choose j : Nat) : Int) : MvPolynomial (Fin (n + 1)) Int)
      = ((u.toNat.choose j : Nat) : MvPolynomial (Fin (n + 1)) Int) by simp]
    ring

end Verif
