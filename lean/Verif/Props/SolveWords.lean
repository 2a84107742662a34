import Verif.Model.SolveWords
import Verif.Props.Conv
import Verif.Props.SolveSystem

/-!
C80: the Newton iteration of `solve_system_padic_flint` in machine words.
-/

namespace Verif

open Spec

theorem aget2_wordRows {m r c : Nat} (A : Matrix (Fin r) (Fin c) (ZMod m)) {i j : Nat} (hi : i < r) (hj : j < c) :
    aget2 (wordRows A) i j = .ok (A ⟨i, hi⟩ ⟨j, hj⟩).val := by
  have h1 := aget_wordRows A ⟨i, hi⟩
  have h2 := aget_words (A ⟨i, hi⟩) ⟨j, hj⟩
  simp only at h1 h2
  rw [aget2, h1, Res.bind_ok, h2]

/-- A double `mapM` that succeeds everywhere. -/
theorem mapM_ofFn {α : Type} {k : Nat} (f : Nat → Res α) (g : Fin k → α) (h : ∀ i : Fin k, f i = .ok (g i)) :
    (List.range k).mapM f = .ok (List.ofFn g) := by
  have key : ∀ l, (hl : l ≤ k) → (List.range l).mapM f = .ok ((List.ofFn g).take l) := by
    intro l
    induction l with
    | zero => intro _; rfl
    | succ t ih =>
      intro hl
      have e := h ⟨t, hl⟩
      simp only at e
      rw [List.range_succ, List.mapM_append, ih (by omega), Res.bind_ok, List.mapM_cons, List.mapM_nil, e, Res.bind_ok,
        List.take_add_one, List.getElem?_ofFn, dif_pos (show t < k from hl)]
      rfl
  rw [key k le_rfl, List.take_of_length_le (by simp)]

theorem nmodMatMul_words {m r k c : Nat} [NeZero m] (A : Matrix (Fin r) (Fin k) (ZMod m)) (B : Matrix (Fin k) (Fin c) (ZMod m)) :
    nmodMatMul m r k c (wordRows A) (wordRows B) = .ok (wordRows (A * B)) := by
  have hm : 0 < m := Nat.pos_of_neZero m
  refine mapM_ofFn _ _ (fun i => mapM_ofFn _ _ (fun j => ?_))
  obtain ⟨out, h1, h2⟩ := forRange_inv (n := k) (s := 0)
    (f := fun t acc => do
      let x ← aget2 (wordRows A) i t
      let y ← aget2 (wordRows B) t j
      let z ← nmodMul m x y
      nmodAdd m acc z)
    (fun t acc => acc = (∑ s ∈ Finset.range t, if h : s < k then A i ⟨s, h⟩ * B ⟨s, h⟩ j else 0).val) (by simp) (fun t acc ht hacc => by
      subst hacc
      refine ⟨_, ?_, rfl⟩
      rw [aget2_wordRows A i.2 ht, Res.bind_ok, aget2_wordRows B ht j.2, Res.bind_ok, nmodMul, if_pos ⟨ZMod.val_lt _, ZMod.val_lt _⟩,
        Res.bind_ok, nmodAdd, if_pos ⟨ZMod.val_lt _, Nat.mod_lt _ hm⟩, Finset.sum_range_succ, dif_pos ht, ZMod.val_add, ZMod.val_mul])
  rw [h1, h2, Finset.sum_range, Matrix.mul_apply]
  congr 3
  funext t
  rw [dif_pos t.2]

theorem nmodMatScalar_words {m r c : Nat} [NeZero m] (A : Matrix (Fin r) (Fin c) (ZMod m)) {a : Nat} (ha : a < m) :
    nmodMatScalar m r c (wordRows A) a = .ok (wordRows ((a : ZMod m) • A)) := by
  refine mapM_ofFn _ _ (fun i => mapM_ofFn _ _ (fun j => ?_))
  rw [aget2_wordRows A i.2 j.2, Res.bind_ok, nmodMul, if_pos ⟨ZMod.val_lt _, ha⟩, Matrix.smul_apply, smul_eq_mul, mul_comm, ZMod.val_mul,
    ZMod.val_cast_of_lt ha, mul_comm]

theorem wordRows_shape {m r c : Nat} (M : Matrix (Fin r) (Fin c) (ZMod m)) :
    (wordRows M).length = r ∧ ∀ row ∈ wordRows M, row.length = c := by
  refine ⟨by simp [wordRows], fun row hrow => ?_⟩
  obtain ⟨i, rfl⟩ := (List.mem_ofFn' _ _).1 hrow
  exact words_length _

/-- **C80 (Newton step).**  One pass of the loop of `solve_system_padic_flint` replaces the words of `U` by those of `2U - UXU`; the
difference is formed in place.  For modulus 2 the factor 2 is not reduced and the call is not allowed. -/
theorem C80_newton {m r c : Nat} [NeZero m] (X : Matrix (Fin r) (Fin c) (ZMod m)) (U : Matrix (Fin c) (Fin r) (ZMod m)) :
    (2 < m → newtonWordsStep m r c (wordRows X) (wordRows U) = .ok (wordRows ((2 : ZMod m) • U - U * (X * U)))) ∧
    (m ≤ 2 → 0 < r → 0 < c → newtonWordsStep m r c (wordRows X) (wordRows U) = .error .ub) := by
  constructor
  · intro hm
    rw [newtonWordsStep, nmodMatMul_words, Res.bind_ok, nmodMatMul_words, Res.bind_ok, nmodMatScalar_words U hm, Res.bind_ok,
      (C80_sub _ (U * (X * U)) _ (wordRows_shape U).1 (wordRows_shape U).2).2.1]
    norm_num
  · intro hm hr hc
    rw [newtonWordsStep, nmodMatMul_words, Res.bind_ok, nmodMatMul_words, Res.bind_ok]
    have : nmodMatScalar m c r (wordRows U) 2 = .error .ub := by
      obtain ⟨r, rfl⟩ : ∃ r', r = r' + 1 := ⟨r - 1, by omega⟩
      obtain ⟨c, rfl⟩ : ∃ c', c = c' + 1 := ⟨c - 1, by omega⟩
      rw [nmodMatScalar, List.range_succ_eq_map (n := c), List.mapM_cons, List.range_succ_eq_map, List.mapM_cons,
        aget2_wordRows U hc hr, Res.bind_ok, nmodMul, if_neg (by omega)]
      rfl
    rw [this]
    rfl

/-- One step for a right inverse of `(1 2)` modulo 9: the entry 4 is right modulo 3 only. -/
example : newtonWordsStep 9 1 2 [[1, 2]] [[4], [0]] = .ok [[1], [0]] ∧ newtonWordsStep 2 1 2 [[1, 0]] [[1], [0]] = .error .ub := by
  decide +kernel

theorem newtonStep_ofMatrix {R : Type} [CommRing R] {r c : Nat} (X : Matrix (Fin r) (Fin c) R) (U : Matrix (Fin c) (Fin r) R) :
    newtonStep (CMat.ofMatrix X) (CMat.ofMatrix U) = CMat.ofMatrix ((2 : R) • U - U * (X * U)) := by
  refine CMat.mk'_eq_ofMatrix (r := c) (c := r) _ _ (fun (i : Fin c) (j : Fin r) => ?_)
  have h1 : ∀ (a b : Fin r), (CMat.mk' r r (fun i j => sumLoop c (fun k => (CMat.ofMatrix X).e i k * (CMat.ofMatrix U).e k j))).e a b =
      (X * U) a b := by
    intro a b
    show (if (a : ℕ) < r ∧ (b : ℕ) < r then _ else _) = _
    rw [if_pos ⟨a.2, b.2⟩, sumLoop_eq_sum_fin, Matrix.mul_apply]
    exact Finset.sum_congr rfl (fun k _ => by rw [CMat.ofMatrix_e, CMat.ofMatrix_e])
  show 2 * (CMat.ofMatrix U).e i j - (if (i : ℕ) < c ∧ (j : ℕ) < r then _ else _) = _
  rw [if_pos ⟨i.2, j.2⟩, CMat.ofMatrix_e, Matrix.sub_apply, Matrix.smul_apply, smul_eq_mul, Matrix.mul_apply]
  congr 1
  refine (sumLoop_eq_sum_fin r _).trans (Finset.sum_congr rfl (fun (k : Fin r) _ => ?_))
  exact congrArg₂ (· * ·) (CMat.ofMatrix_e U i k) (h1 k j)

/-- **C80 (Newton iteration).**  The loop in words does what the loop modulo `m` does. -/
theorem C80_lift {m r c : Nat} [NeZero m] (X : Matrix (Fin r) (Fin c) (ZMod m)) (precision fuel j : Nat)
    (h : 2 < m ∨ precision ≤ j) (U : Matrix (Fin c) (Fin r) (ZMod m)) :
    ∃ V : Matrix (Fin c) (Fin r) (ZMod m), newtonLift (CMat.ofMatrix X) precision fuel j (CMat.ofMatrix U) = CMat.ofMatrix V ∧
      newtonWords m r c (wordRows X) precision fuel j (wordRows U) = .ok (wordRows V) := by
  induction fuel generalizing j U with
  | zero => exact ⟨U, rfl, rfl⟩
  | succ fuel ih =>
    by_cases hj : j < precision
    · have hm : 2 < m := h.resolve_right (by omega)
      obtain ⟨V, h1, h2⟩ := ih (2 * j) (Or.inl hm) ((2 : ZMod m) • U - U * (X * U))
      refine ⟨V, ?_, ?_⟩
      · rw [newtonLift, if_pos hj, newtonStep_ofMatrix, h1]
      · rw [newtonWords, if_pos hj, (C80_newton X U).1 hm, Res.bind_ok, h2]
    · exact ⟨U, by rw [newtonLift, if_neg hj], by rw [newtonWords, if_neg hj]⟩

theorem rowsOf_words {q r c : Nat} (X : CMat Nat) (hr : X.rows = r) (hc : X.cols = c) (M : Matrix (Fin r) (Fin c) (ZMod q))
    (h : ∀ (i : Fin r) (j : Fin c), X.e i j = (M i j).val) : rowsOf X = wordRows M := by
  subst hr hc
  rw [rowsOf, wordRows]
  congr 1
  funext i
  rw [words]
  congr 1
  funext j
  exact h i j

/-- **C80 (`solve_system_padic_flint` in words).**  For every modulus `p^N` of one machine word the function, with its matrices
of words and its conversions, returns what the model modulo `p^N` returns; so C20 holds for it.  No call of FLINT gets a word that is
not reduced. -/
theorem C80_padic {p N : Nat} [Fact p.Prime] (la : LinAlg (ZMod p)) (hla : LinAlgOK la) (T : CMat (ZMod (p ^ N))) (hN : 1 ≤ N)
    (hword : p ^ N < 2 ^ 63) : solvePadicWords la T N = solveSystemPadic la true T N ∧
      ∃ B U, solvePadicWords la T N = .ok (B, U) ∧ Solves T B U := by
  have hp := (Fact.out : p.Prime)
  have hpq : p ≤ p ^ N := Nat.le_self_pow (by omega) p
  haveI : NeZero (p ^ N) := ⟨(pow_pos hp.pos N).ne'⟩
  have h2 : 2 < p ^ N ∨ N ≤ 1 := by
    rcases Nat.lt_or_ge 1 N with h | h
    · left
      calc 2 < 2 ^ 2 := by norm_num
        _ ≤ p ^ 2 := Nat.pow_le_pow_left hp.two_le 2
        _ ≤ p ^ N := Nat.pow_le_pow_right hp.pos h
    · exact Or.inr h
  have main : solvePadicWords la T N = solveSystemPadic la true T N := by
    rw [solvePadicWords, solveSystemPadic]
    by_cases hc0 : T.cols = 0
    · rw [if_pos hc0, if_pos hc0]
    rw [if_neg hc0, if_neg hc0]
    have e1 : convToNmodMat ZMod.val p (CMat.mk' T.rows T.cols (fun _ _ => 0)) T = .ok ⟨T.rows, T.cols, fun a b =>
        if a < T.rows ∧ b < T.cols then (T.e a b).val % p else (CMat.mk' T.rows T.cols (fun _ _ => 0)).e a b⟩ := by
      rw [convToNmodMat, decide_eq_true (show T.rows = (CMat.mk' T.rows T.cols (fun _ _ => (0 : Nat))).rows from rfl), check_true,
        Res.bind_ok, decide_eq_true (show T.cols = (CMat.mk' T.rows T.cols (fun _ _ => (0 : Nat))).cols from rfl), check_true,
        Res.bind_ok, if_neg (by have := hp.pos; omega)]
      exact CMat.fill_eq (CMat.mk' T.rows T.cols (fun _ _ => 0)) _
    have e2 : (CMat.map (fun w : Nat => (w : ZMod p)) ⟨T.rows, T.cols, fun a b =>
        if a < T.rows ∧ b < T.cols then (T.e a b).val % p else (CMat.mk' T.rows T.cols (fun _ _ => 0)).e a b⟩) =
        T.map (fun x => (x.val : ZMod p)) := by
      unfold CMat.map CMat.mk'
      congr 1
      funext a b
      by_cases hab : a < T.rows ∧ b < T.cols
      · simp only [if_pos hab, ZMod.natCast_mod]
      · simp only [if_neg hab]
    rw [e1, Res.bind_ok, e2]
    obtain ⟨B, UFp, e3, hs, -, -⟩ := C19_solve_system la hla true (T.map (fun x => (x.val : ZMod p)))
    rw [e3, Res.bind_ok, Res.bind_ok]
    simp only [decide_eq_false (show ¬ 2 ^ 63 ≤ p ^ N by omega), Bool.and_false, Bool.false_eq_true, if_false]
    have hUr : UFp.rows = T.cols + B.length := hs.rows
    have hUc : UFp.cols = T.rows := hs.cols
    rw [CMat.fill_le _ _ (by exact le_rfl) (by show T.cols ≤ T.cols + B.length; omega), Res.bind_ok]
    set XM : Matrix (Fin T.rows) (Fin (T.cols + B.length)) (ZMod (p ^ N)) := fun i j => (augmentC T B).e i j with hXM
    set UM : Matrix (Fin (T.cols + B.length)) (Fin T.rows) (ZMod (p ^ N)) := fun i j => (((UFp.e i j).val : Nat) : ZMod (p ^ N)) with hUM
    have eX : augmentC T B = CMat.ofMatrix XM := CMat.mk'_eq_ofMatrix _ _ (fun i j => by
      rw [hXM]
      exact (if_pos (⟨i.2, j.2⟩ : (i : ℕ) < T.rows ∧ (j : ℕ) < T.cols + B.length)).symm)
    have eU : UFp.map (fun x => ((x.val : Nat) : ZMod (p ^ N))) = CMat.ofMatrix UM := by
      rw [CMat.map, hUr, hUc]
      exact CMat.mk'_eq_ofMatrix _ _ (fun i j => rfl)
    have h1v : (1 : ZMod (p ^ N)).val = 1 := by
      have := ZMod.val_cast_of_lt (n := p ^ N) (a := 1) (lt_of_lt_of_le hp.one_lt hpq)
      rwa [Nat.cast_one] at this
    obtain ⟨X, f1, f2, f3, f4⟩ := forRange_inv (n := B.length)
      (s := (⟨T.rows, T.cols + B.length, fun a b => if a < T.rows ∧ b < T.cols then (T.e a b).val else
        (CMat.mk' T.rows (T.cols + B.length) (fun _ _ => (0 : Nat))).e a b⟩ : CMat Nat))
      (f := fun i X => do
        let b ← aget B i
        X.store b (i + T.cols) 1)
      (fun i X => X.rows = T.rows ∧ X.cols = T.cols + B.length ∧ ∀ a b, a < T.rows → b < T.cols + B.length →
        X.e a b = if b < T.cols then (T.e a b).val else if b < T.cols + i ∧ a = B.getD (b - T.cols) 0 then 1 else 0)
      ⟨rfl, rfl, fun a b ha hb => by
        show (if a < T.rows ∧ b < T.cols then (T.e a b).val else (if a < T.rows ∧ b < T.cols + B.length then 0 else 0)) = _
        by_cases hbc : b < T.cols
        · rw [if_pos ⟨ha, hbc⟩, if_pos hbc]
        · rw [if_neg (fun h => hbc h.2), if_neg hbc, ite_self, if_neg (fun h => hbc (by omega))]⟩ (fun i X hi hX => by
        obtain ⟨x1, x2, x3⟩ := hX
        have hb : B[i] < T.rows := hs.lt _ (List.getElem_mem hi)
        refine ⟨⟨X.rows, X.cols, fun a b => if a = B[i] ∧ b = i + T.cols then 1 else X.e a b⟩, ?_, x1, x2, fun a b ha hbb => ?_⟩
        · rw [aget_of_lt B i hi, Res.bind_ok, CMat.store, if_pos ⟨by rw [x1]; exact hb, by rw [x2]; omega⟩]
        · show (if a = B[i] ∧ b = i + T.cols then 1 else X.e a b) = _
          by_cases hbi : b = i + T.cols
          · subst hbi
            have hd : B.getD (i + T.cols - T.cols) 0 = B[i] := by
              rw [Nat.add_sub_cancel, List.getD_eq_getElem?_getD, List.getElem?_eq_getElem hi]; rfl
            rw [if_neg (by omega : ¬ i + T.cols < T.cols), hd]
            by_cases hab : a = B[i]
            · rw [if_pos ⟨hab, rfl⟩, if_pos ⟨by omega, hab⟩]
            · rw [if_neg (fun h => hab h.1), x3 _ _ ha hbb, if_neg (by omega), if_neg (by omega), if_neg (fun h => hab h.2)]
          · rw [if_neg (fun h => hbi h.2), x3 _ _ ha hbb]
            by_cases hbc : b < T.cols
            · rw [if_pos hbc, if_pos hbc]
            · rw [if_neg hbc, if_neg hbc]
              exact if_congr (and_congr_left' (by omega)) rfl rfl)
    have hX : rowsOf X = wordRows XM := by
      refine rowsOf_words X f2 f3 XM (fun i j => ?_)
      rw [f4 _ _ i.2 j.2, hXM]
      have h12 : (i : ℕ) < T.rows ∧ (j : ℕ) < T.cols + B.length := ⟨i.2, j.2⟩
      rw [augmentC, CMat.mk']
      simp only [if_pos h12]
      by_cases hjc : (j : ℕ) < T.cols
      · rw [if_pos hjc, if_pos hjc]
      · rw [if_neg hjc, if_neg hjc]
        by_cases hb : (i : ℕ) = B.getD (j - T.cols) 0
        · rw [if_pos ⟨j.2, hb⟩, if_pos hb, h1v]
        · rw [if_neg (fun h => hb h.2), if_neg hb, ZMod.val_zero]
    refine Eq.trans (congrArg (· >>= _) f1) ?_
    rw [Res.bind_ok, CMat.fill_le _ _ (by exact le_rfl) (by exact le_rfl), Res.bind_ok, hX,
      rowsOf_words _ (by rfl) (by rfl) UM (fun i j => by
        show (if (i : ℕ) < T.cols + B.length ∧ (j : ℕ) < T.rows then (UFp.e i j).val else _) = _
        rw [if_pos ⟨i.2, j.2⟩, hUM, ZMod.val_cast_of_lt (lt_of_lt_of_le (ZMod.val_lt _) hpq)])]
    obtain ⟨V, v1, v2⟩ := C80_lift XM N N 1 h2 UM
    rw [v2, Res.bind_ok, eX, eU, v1, convFromNmodMat_eq, Res.bind_ok]
    show Except.ok (B, _) = Except.ok (B, _)
    congr 2
    unfold CMat.ofMatrix
    congr 1
    funext a b
    by_cases hab : a < T.cols + B.length ∧ b < T.rows
    · rw [if_pos hab, dif_pos hab]
      simp [wordRows, words, hab.1, hab.2]
    · rw [if_neg hab, dif_neg hab]
  refine ⟨main, ?_⟩
  rw [main]
  exact C20_padic la hla true T N le_rfl

local instance solveWordsPrime : Fact (Nat.Prime 7) := ⟨by norm_num⟩

/-- Modulo `7^5`. -/
example : (∃ la : LinAlg (ZMod 7), LinAlgOK la) ∧ 1 ≤ 5 ∧ 7 ^ 5 < 2 ^ 63 := ⟨exists_linAlg (ZMod 7), by norm_num, by norm_num⟩

end Verif
