import Verif.Model.Conv
import Verif.Model.Timing
import Verif.Lemmas.Matrix
import Verif.Props.Matrix
import Mathlib.Data.Matrix.Mul
import Mathlib.Tactic.LinearCombination

/-!
C79: conversions between NTL, FLINT and arrays.  C80: matrices over one machine word.  C81: time differences.
-/

namespace Verif

open Spec

/-! ### C79 -/

theorem convToArray_eq {α β : Type} (f : α → β) (arr : List β) (off : Nat) (v : List α) (h : off + v.length ≤ arr.length) :
    convToArray f arr off v = .ok (arr.take off ++ v.map f ++ arr.drop (off + v.length)) := by
  obtain ⟨out, h1, h2⟩ := forRange_inv (n := v.length) (s := arr)
    (f := fun i arr => do
      let x ← aget v i
      aset arr (off + i) (f x))
    (fun i out => out = arr.take off ++ (v.take i).map f ++ arr.drop (off + i)) (by simp) (fun i s hi hs => by
      subst hs
      refine ⟨_, ?_, rfl⟩
      rw [aget_of_lt v i hi, Res.bind_ok, aset_of_lt _ _ _ (by simp; omega)]
      congr 1
      have hd : arr.drop (off + i) = arr[off + i]'(by omega) :: arr.drop (off + (i + 1)) := by
        rw [← List.cons_getElem_drop_succ (h := by omega)]; rfl
      rw [hd, List.set_append_right _ _ (by simp; omega)]
      simp only [List.length_append, List.length_take, List.length_map]
      rw [show off + i - (min off arr.length + min i v.length) = 0 by omega, List.set_cons_zero,
        show i + 1 = i + 1 from rfl, List.take_add_one, List.map_append, List.getElem?_eq_getElem hi]
      simp)
  rw [convToArray, h1, h2]
  simp

/-- **C79 (writing a vector to an array).**  With room for the vector exactly the cells from `off` on are overwritten, with the converted
entries; without room (and a vector that is not empty) the behaviour is undefined. -/
theorem C79_write {α β : Type} (f : α → β) (arr : List β) (off : Nat) (v : List α) :
    (off + v.length ≤ arr.length → ∃ out, convToArray f arr off v = .ok out ∧ out.length = arr.length ∧
      (∀ i, i < v.length → out[off + i]? = (v[i]?).map f) ∧
      ∀ i, i < off ∨ off + v.length ≤ i → out[i]? = arr[i]?) ∧
    (arr.length < off + v.length → v ≠ [] → convToArray f arr off v = .error .ub) := by
  constructor
  · intro h
    refine ⟨_, convToArray_eq f arr off v h, by simp; omega, fun i hi => ?_, fun i hi => ?_⟩
    · rw [List.append_assoc, List.getElem?_append_right (by simp), List.getElem?_append_left (by simp; omega)]
      simp only [List.length_take, List.getElem?_map]
      rw [show off + i - min off arr.length = i by omega]
    · rcases hi with hi | hi
      · rw [List.append_assoc, List.getElem?_append_left (by simp; omega), List.getElem?_take, if_pos hi]
      · rw [List.getElem?_append_right (by simp; omega)]
        simp only [List.length_append, List.length_take, List.length_map, List.getElem?_drop]
        rw [show off + v.length + (i - (min off arr.length + v.length)) = i by omega]
  · intro h hv
    have hpos : 0 < v.length := List.length_pos_iff.2 hv
    refine forRange_error (arr.length - off) .ub (by omega) (fun _ out => out.length = arr.length) rfl (fun i s hi hs => ?_)
      (fun s hs => ?_)
    · refine ⟨s.set (off + i) (f (v[i]'(by omega))), ?_, by simp [hs]⟩
      rw [aget_of_lt v i (by omega), Res.bind_ok, aset_of_lt _ _ _ (by omega)]
    · rw [aget_of_lt v _ (by omega), Res.bind_ok, aset_ub _ _ _ (by omega)]

example : convToArray id [1, 2, 3, 4, 5] 1 [7, 8] = .ok [1, 7, 8, 4, 5] ∧
    convToArray id [1, 2, 3, 4, 5] 4 [7, 8] = (.error .ub : Res (List Int)) := by decide +kernel

theorem convFromArray_eq {α β : Type} (f : β → Res α) (g : β → α) (hf : ∀ x, f x = .ok (g x)) (arr : List β) (off len : Nat)
    (h : off + len ≤ arr.length) : convFromArray f arr off len = .ok (((arr.drop off).take len).map g) := by
  induction len with
  | zero => rfl
  | succ k ih =>
    rw [convFromArray, List.range_succ, List.mapM_append, ← convFromArray, ih (by omega), Res.bind_ok, List.mapM_cons, List.mapM_nil,
      aget_of_lt arr _ (by omega), Res.bind_ok, hf, Res.bind_ok]
    rw [List.take_add_one, List.map_append, List.getElem?_drop, List.getElem?_eq_getElem (by omega)]
    rfl

/-- **C79 (reading a vector from an array).**  The vector read is the slice of the array, converted; beyond the end of the array the
behaviour is undefined. -/
theorem C79_read {α β : Type} (f : β → Res α) (g : β → α) (hf : ∀ x, f x = .ok (g x)) (arr : List β) (off len : Nat) :
    (off + len ≤ arr.length → ∃ v, convFromArray f arr off len = .ok v ∧ v.length = len ∧
      ∀ i, i < len → v[i]? = (arr[off + i]?).map g) ∧
    (arr.length < off + len → 0 < len → convFromArray f arr off len = .error .ub) := by
  constructor
  · intro h
    refine ⟨_, convFromArray_eq f g hf arr off len h, by simp; omega, fun i hi => ?_⟩
    rw [List.getElem?_map, List.getElem?_take, if_pos hi, List.getElem?_drop]
  · intro h h0
    have key : ∀ l, arr.length < off + l → 0 < l → convFromArray f arr off l = .error .ub := by
      intro l
      induction l with
      | zero => intro _ h; omega
      | succ k ih =>
        intro h1 _
        rw [convFromArray, List.range_succ, List.mapM_append, ← convFromArray]
        by_cases hk : arr.length < off + k ∧ 0 < k
        · rw [ih hk.1 hk.2]; rfl
        · rcases Nat.eq_zero_or_pos k with rfl | hk0
          · rw [convFromArray, List.range_zero, List.mapM_nil, Res.pure_eq, Res.bind_ok, List.mapM_cons,
              aget_ub arr _ (by omega)]; rfl
          · rw [convFromArray_eq f g hf arr off k (by omega), Res.bind_ok, List.mapM_cons, aget_ub arr _ (by omega)]; rfl
    exact key len h h0

example : convFromArray (fun x : Int => .ok (2 * x)) [1, 2, 3, 4, 5] 2 3 = .ok [6, 8, 10] ∧
    convFromArray (fun x : Int => .ok (2 * x)) [1, 2, 3, 4, 5] 3 3 = .error .ub := by decide +kernel

/-- A slice that has just been written is read back. -/
theorem drop_take_written {β : Type} (arr w : List β) (off : Nat) (h : off ≤ arr.length) :
    (((arr.take off ++ w ++ arr.drop (off + w.length)).drop off).take w.length) = w := by
  rw [List.append_assoc, List.drop_append_of_le_length (by simp; omega), List.drop_eq_nil_of_le (by simp), List.nil_append,
    List.take_append_of_le_length le_rfl, List.take_length]

/-- **C79 (vectors through FLINT).**  A vector over `T` that is written to an array of FLINT integers and read back is the same vector,
whatever `T` is, as long as NTL's conversions between `T` and `ZZ` are inverse on `T`; for `T = ZZ_p` the integers written are the
representatives in `[0, q)`. -/
theorem C79_fmpz_vec {T : Type} (toZ : T → Int) (ofZ : Int → T) (h : ∀ x, ofZ (toZ x) = x) (arr : List Int) (off : Nat) (v : List T)
    (hroom : off + v.length ≤ arr.length) :
    ∃ out, convVecToFmpz toZ arr off v = .ok out ∧ (∀ i, i < v.length → out[off + i]? = (v[i]?).map toZ) ∧
      convVecFromFmpz ofZ out off v.length = .ok v := by
  obtain ⟨h1, h2⟩ : (∀ x, convZZtoFmpz x = x) ∧ ∀ x, convFmpztoZZ x = .ok x :=
    ⟨fun x => (C17_bigint_round_trip x).2.2.2.2.1, fun x => (C17_bigint_round_trip x).2.2.2.2.2⟩
  have e : (fun x => convZZtoFmpz (toZ x)) = toZ := funext fun x => h1 _
  obtain ⟨out, a1, a2, a3, a4⟩ := (C79_write toZ arr off v).1 hroom
  refine ⟨out, by rw [convVecToFmpz, e]; exact a1, a3, ?_⟩
  have := convToArray_eq toZ arr off v hroom
  rw [a1] at this
  obtain rfl := Except.ok.inj this
  rw [convVecFromFmpz, convFromArray_eq _ ofZ (fun x => by rw [h2]; rfl) _ _ _ (by simp; omega)]
  congr 1
  have := drop_take_written arr (v.map toZ) off (by omega)
  rw [List.length_map] at this
  rw [this, List.map_map, show ofZ ∘ toZ = id from funext h, List.map_id]

/-- `ZZ` and `ZZ_p` meet the hypothesis. -/
example (q : ℕ) [NeZero q] : (∀ x : Int, id (id x) = x) ∧ ∀ x : ZMod q, (((x.val : Int) : ZMod q)) = x :=
  ⟨fun _ => rfl, fun x => by rw [Int.cast_natCast, ZMod.natCast_zmod_val]⟩

theorem convFromArray_of {α β : Type} (f : α → β) (g : β → Res α) (hg : ∀ x, g (f x) = .ok x) (arr : List β) (off : Nat) (v : List α)
    (h : ∀ i, i < v.length → arr[off + i]? = (v[i]?).map f) : convFromArray g arr off v.length = .ok v := by
  have key : ∀ l, l ≤ v.length → convFromArray g arr off l = .ok (v.take l) := by
    intro l
    induction l with
    | zero => intro _; rfl
    | succ k ih =>
      intro hl
      have e : arr[off + k]? = some (f v[k]) := by rw [h k hl, List.getElem?_eq_getElem hl]; rfl
      rw [convFromArray, List.range_succ, List.mapM_append, ← convFromArray, ih (by omega), Res.bind_ok, List.mapM_cons, List.mapM_nil,
        aget, e]
      show (do let x ← g (f v[k]); _) >>= _ = _
      rw [hg, List.take_add_one, List.getElem?_eq_getElem hl]
      rfl
  rw [key _ le_rfl, List.take_length]

/-- **C79 (the lists of `frob_ND_flint`).**  The arrays allocated for `Hlen` vectors of length `k` are filled without leaving them, and
afterwards part `i` holds vector `i`, whatever the memory held before. -/
theorem C79_lists {α β : Type} (f : α → β) (g : β → Res α) (hg : ∀ x, g (f x) = .ok x) (k : Nat) (vs : List (List α)) (arr : List β)
    (hk : ∀ v ∈ vs, v.length = k) (harr : arr.length = vs.length * k) :
    ∃ out, fillLists f k vs arr = .ok out ∧ out.length = vs.length * k ∧
      ∀ i v, vs[i]? = some v → convFromArray g out (i * k) k = .ok v := by
  obtain ⟨out, h1, h2, h3⟩ := forRange_inv (n := vs.length) (s := arr)
    (f := fun j arr => do
      let v ← aget vs j
      convToArray f arr (j * k) v)
    (fun j out => out.length = arr.length ∧ ∀ i v, i < j → vs[i]? = some v → ∀ t, t < k → out[i * k + t]? = (v[t]?).map f)
    ⟨rfl, fun i v hi => absurd hi (by omega)⟩ (fun j s hj hs => by
      obtain ⟨hs1, hs2⟩ := hs
      have hl : vs[j].length = k := hk _ (List.getElem_mem hj)
      have hroom : j * k + vs[j].length ≤ s.length := by
        rw [hl, hs1, harr, ← Nat.succ_mul]
        exact Nat.mul_le_mul_right _ hj
      obtain ⟨out, a1, a2, a3, a4⟩ := (C79_write f s (j * k) vs[j]).1 hroom
      refine ⟨out, by rw [aget_of_lt vs j hj, Res.bind_ok]; exact a1, a2.trans hs1, fun i v hi hv t ht => ?_⟩
      rcases Nat.lt_succ_iff_lt_or_eq.1 hi with hi | rfl
      · rw [a4 _ (Or.inl _)]
        · exact hs2 i v hi hv t ht
        · have : (i + 1) * k ≤ j * k := Nat.mul_le_mul_right _ hi
          rw [Nat.succ_mul] at this
          omega
      · rw [List.getElem?_eq_getElem hj] at hv
        obtain rfl := Option.some.inj hv
        exact a3 t (by omega))
  refine ⟨out, h1, h2.trans harr, fun i v hv => ?_⟩
  have hl : v.length = k := hk v (List.mem_of_getElem? hv)
  have := convFromArray_of f g hg out (i * k) v (fun t ht => h3 i v (List.getElem?_eq_some_iff.1 hv).1 hv t (by omega))
  rwa [hl] at this

example : fillLists (fun x : Int => x) 2 [[1, 2], [3, 4], [5, 6]] [9, 9, 9, 9, 9, 9] = .ok [1, 2, 3, 4, 5, 6] ∧
    convFromArray (fun x => .ok x) [1, 2, 3, 4, 5, 6] (1 * 2) 2 = (.ok [3, 4] : Res (List Int)) := by decide +kernel

theorem CMat.fill_le {R : Type} (A : CMat R) (f : Nat → Nat → R) {r c : Nat} (hr : r ≤ A.rows) (hc : c ≤ A.cols) :
    A.fill r c f = .ok ⟨A.rows, A.cols, fun a b => if a < r ∧ b < c then f a b else A.e a b⟩ := by
  obtain ⟨out, h1, h2⟩ := forRange_inv (n := r) (s := A)
    (f := fun i M => forRange c M (fun j M => M.store i j (f i j)))
    (fun i M => M = ⟨A.rows, A.cols, fun a b => if a < i ∧ b < c then f a b else A.e a b⟩)
    (by cases A; simp) (fun i M hi hM => by
      subst hM
      refine (forRange_inv (n := c)
        (fun j M => M = ⟨A.rows, A.cols, fun a b => if (a < i ∨ a = i ∧ b < j) ∧ b < c then f a b else A.e a b⟩)
        (by simp) (fun j M hj hM => ⟨_, by subst hM; rw [CMat.store, if_pos ⟨lt_of_lt_of_le hi hr, lt_of_lt_of_le hj hc⟩], ?_⟩)).imp
        (fun M h => ⟨h.1, ?_⟩)
      · ext a b
        · rfl
        · rfl
        · show (if a = i ∧ b = j then f i j else if (a < i ∨ a = i ∧ b < j) ∧ b < c then f a b else A.e a b) = _
          by_cases hab : a = i ∧ b = j
          · obtain ⟨rfl, rfl⟩ := hab
            rw [if_pos ⟨rfl, rfl⟩]
            exact (if_pos ⟨Or.inr ⟨rfl, by omega⟩, hj⟩).symm
          · rw [if_neg hab]
            exact if_congr (by omega) rfl rfl
      · rw [h.2]
        ext a b
        · rfl
        · rfl
        · exact if_congr (by omega) rfl rfl)
  exact h1.trans (congrArg _ h2)

theorem CMat.fill_eq {R : Type} (A : CMat R) (f : Nat → Nat → R) :
    A.fill A.rows A.cols f = .ok ⟨A.rows, A.cols, fun a b => if a < A.rows ∧ b < A.cols then f a b else A.e a b⟩ :=
  A.fill_le f le_rfl le_rfl

/-- **C79 (matrices of FLINT integers).**  A matrix over `T` is written to a FLINT matrix of the same shape entry by entry and
read back unchanged; over `ZZ_p` the integers are the representatives, and reading an arbitrary integer matrix reduces it.  A matrix of
another shape stops at an assertion. -/
theorem C79_fmpz_mat {T : Type} [Zero T] (toZ : T → Int) (ofZ : Int → T) (h : ∀ x, ofZ (toZ x) = x) {r c : Nat}
    (B : Matrix (Fin r) (Fin c) T) (A : CMat Int) :
    (A.rows = r → A.cols = c → ∃ A', convToFmpzMat toZ A (CMat.ofMatrix B) = .ok A' ∧ A'.rows = r ∧ A'.cols = c ∧
      (∀ (i : Fin r) (j : Fin c), A'.e i j = toZ (B i j)) ∧ convFromFmpzMat ofZ A' = .ok (CMat.ofMatrix B)) ∧
    (A.rows ≠ r ∨ A.cols ≠ c → convToFmpzMat toZ A (CMat.ofMatrix B) = .error .assertFail) ∧
    ∀ M : Matrix (Fin r) (Fin c) Int, convFromFmpzMat ofZ (CMat.ofMatrix M) = .ok (CMat.ofMatrix (M.map ofZ)) := by
  obtain ⟨h1, h2⟩ : (∀ x, convZZtoFmpz x = x) ∧ ∀ x, convFmpztoZZ x = .ok x :=
    ⟨fun x => (C17_bigint_round_trip x).2.2.2.2.1, fun x => (C17_bigint_round_trip x).2.2.2.2.2⟩
  have back : ∀ M : CMat Int, convFromFmpzMat ofZ M =
      .ok ⟨M.rows, M.cols, fun a b => if a < M.rows ∧ b < M.cols then ofZ (M.e a b) else 0⟩ := by
    intro M
    have := CMat.fill_eq (CMat.mk' M.rows M.cols (fun _ _ => (0 : T))) (fun i j => ofZ (M.e i j))
    have e : convFromFmpzMat ofZ M = (CMat.mk' M.rows M.cols (fun _ _ => (0 : T))).fill M.rows M.cols (fun i j => ofZ (M.e i j)) := by
      rw [convFromFmpzMat, CMat.fill]
      simp only [h2, Res.bind_ok]
    rw [e]
    refine this.trans ?_
    simp [CMat.mk']
  refine ⟨?_, ?_, ?_⟩
  · rintro rfl rfl
    refine ⟨⟨A.rows, A.cols, fun a b => if a < A.rows ∧ b < A.cols then toZ ((CMat.ofMatrix B).e a b) else A.e a b⟩, ?_, rfl, rfl,
      fun i j => ?_, ?_⟩
    · rw [convToFmpzMat, decide_eq_true (show (CMat.ofMatrix B).rows = A.rows from rfl), check_true, Res.bind_ok,
        decide_eq_true (show (CMat.ofMatrix B).cols = A.cols from rfl), check_true, Res.bind_ok]
      simp only [h1]
      exact CMat.fill_eq A _
    · show (if (i : ℕ) < A.rows ∧ (j : ℕ) < A.cols then _ else _) = _
      rw [if_pos ⟨i.2, j.2⟩, CMat.ofMatrix_e]
    · rw [back]
      congr 1
      ext a b
      · rfl
      · rfl
      · show (if a < A.rows ∧ b < A.cols then ofZ (if a < A.rows ∧ b < A.cols then _ else _) else 0) = _
        by_cases hab : a < A.rows ∧ b < A.cols
        · rw [if_pos hab, if_pos hab, h]
        · rw [if_neg hab]
          simp [CMat.ofMatrix, hab]
  · rintro hne
    rw [convToFmpzMat]
    by_cases hr : A.rows = r
    · rw [decide_eq_true (show (CMat.ofMatrix B).rows = A.rows from hr.symm), check_true, Res.bind_ok,
        decide_eq_false (show ¬ (CMat.ofMatrix B).cols = A.cols from fun hc => hne.elim (fun h => h hr) (fun h => h hc.symm)),
        check_false]
      rfl
    · rw [decide_eq_false (show ¬ (CMat.ofMatrix B).rows = A.rows from fun h => hr h.symm), check_false]
      rfl
  · intro M
    rw [back]
    congr 1
    ext a b
    · rfl
    · rfl
    · show (if a < r ∧ b < c then ofZ (if hh : _ then _ else _) else 0) = _
      by_cases hab : a < r ∧ b < c
      · rw [if_pos hab, dif_pos hab]
        simp [CMat.ofMatrix, hab]
      · rw [if_neg hab]
        simp [CMat.ofMatrix, hab]

/-- A 2 x 2 matrix modulo 5 through a FLINT matrix. -/
example : ∃ A', convToFmpzMat (fun x : ZMod 5 => (x.val : Int)) (CMat.mk' 2 2 (fun _ _ => 0))
    (CMat.ofMatrix (!![1, 2; 3, -1] : Matrix (Fin 2) (Fin 2) (ZMod 5))) = .ok A' ∧ A'.e 1 1 = 4 := by
  obtain ⟨A', h1, -, -, h2, -⟩ := (C79_fmpz_mat (fun x : ZMod 5 => (x.val : Int)) (fun z => (z : ZMod 5))
    (fun x => by rw [Int.cast_natCast, ZMod.natCast_zmod_val]) !![1, 2; 3, -1] (CMat.mk' 2 2 (fun _ _ => 0))).1 rfl rfl
  refine ⟨A', h1, (h2 1 1).trans ?_⟩
  decide

theorem convToNmodMat_eq {T : Type} [Zero T] (rep : T → Nat) {m : Nat} (hm : 0 < m) {r c : Nat} (B : Matrix (Fin r) (Fin c) T)
    (A : CMat Nat) (hr : A.rows = r) (hc : A.cols = c) : convToNmodMat rep m A (CMat.ofMatrix B) =
      .ok ⟨r, c, fun a b => if a < r ∧ b < c then rep ((CMat.ofMatrix B).e a b) % m else A.e a b⟩ := by
  subst hr hc
  rw [convToNmodMat, decide_eq_true (show (CMat.ofMatrix B).rows = A.rows from rfl), check_true, Res.bind_ok,
    decide_eq_true (show (CMat.ofMatrix B).cols = A.cols from rfl), check_true, Res.bind_ok, if_neg (by omega)]
  exact CMat.fill_eq A _

theorem convFromNmodMat_eq {T : Type} [Zero T] (ofW : Nat → T) (B : CMat Nat) : convFromNmodMat ofW B =
    .ok ⟨B.rows, B.cols, fun a b => if a < B.rows ∧ b < B.cols then ofW (B.e a b) else 0⟩ := by
  rw [convFromNmodMat]
  refine (CMat.fill_eq (CMat.mk' B.rows B.cols (fun _ _ => (0 : T))) _).trans ?_
  simp [CMat.mk']

/-- **C79 (matrices over one word).**  A matrix modulo `q` written to a FLINT matrix of the same shape with modulus `m > 0` holds the
representatives reduced modulo `m`, all below `m`.  Reading it back gives every matrix unchanged if and only if `q <= m` (for matrices
that are not empty); the code uses `m = q`.  A matrix of another shape stops at an assertion. -/
theorem C79_nmod_mat {q m : Nat} [NeZero q] (hm : 0 < m) {r c : Nat} (A : CMat Nat) :
    (A.rows = r → A.cols = c → (∀ B : Matrix (Fin r) (Fin c) (ZMod q), ∃ A', convToNmodMat ZMod.val m A (CMat.ofMatrix B) = .ok A' ∧
      A'.rows = r ∧ A'.cols = c ∧ (∀ (i : Fin r) (j : Fin c), A'.e i j < m ∧ A'.e i j ≡ (B i j).val [MOD m]) ∧
      (q ≤ m → (∀ (i : Fin r) (j : Fin c), ((A'.e i j : Nat) : ZMod q) = B i j) ∧
        convFromNmodMat (fun w => (w : ZMod q)) A' = .ok (CMat.ofMatrix B))) ∧
      (0 < r → 0 < c → m < q → ∃ B : Matrix (Fin r) (Fin c) (ZMod q), ∃ A', convToNmodMat ZMod.val m A (CMat.ofMatrix B) = .ok A' ∧
        convFromNmodMat (fun w => (w : ZMod q)) A' ≠ .ok (CMat.ofMatrix B))) ∧
    (A.rows ≠ r ∨ A.cols ≠ c → ∀ B : Matrix (Fin r) (Fin c) (ZMod q), convToNmodMat ZMod.val m A (CMat.ofMatrix B) = .error .assertFail) := by
  refine ⟨fun hr hc => ⟨fun B => ⟨_, convToNmodMat_eq ZMod.val hm B A hr hc, rfl, rfl, fun i j => ?_, fun hq => ?_⟩, fun h1 h2 hq => ?_⟩,
    fun hne B => ?_⟩
  · show (if (i : ℕ) < r ∧ (j : ℕ) < c then _ else _) < m ∧ (if (i : ℕ) < r ∧ (j : ℕ) < c then _ else _) ≡ _ [MOD m]
    rw [if_pos ⟨i.2, j.2⟩, CMat.ofMatrix_e]
    exact ⟨Nat.mod_lt _ hm, Nat.mod_modEq _ _⟩
  · have hv : ∀ x : ZMod q, ((x.val % m : Nat) : ZMod q) = x := fun x => by
      rw [Nat.mod_eq_of_lt (lt_of_lt_of_le (ZMod.val_lt x) hq), ZMod.natCast_zmod_val]
    refine ⟨fun i j => ?_, ?_⟩
    · show (((if (i : ℕ) < r ∧ (j : ℕ) < c then _ else _ : Nat)) : ZMod q) = _
      rw [if_pos ⟨i.2, j.2⟩, CMat.ofMatrix_e, hv]
    · rw [convFromNmodMat_eq]
      congr 1
      ext a b
      · rfl
      · rfl
      · show (if a < r ∧ b < c then (((if a < r ∧ b < c then _ else _ : Nat)) : ZMod q) else 0) = _
        by_cases hab : a < r ∧ b < c
        · rw [if_pos hab, if_pos hab, hv]
        · rw [if_neg hab]
          simp [CMat.ofMatrix, hab]
  · refine ⟨fun _ _ => (m : ZMod q), _, convToNmodMat_eq ZMod.val hm _ A hr hc, fun h => ?_⟩
    rw [convFromNmodMat_eq] at h
    have h := congrFun (congrFun (congrArg CMat.e (Except.ok.inj h)) 0) 0
    have h00 : 0 < r ∧ 0 < c := ⟨h1, h2⟩
    have hmv : (m : ZMod q).val = m := ZMod.val_cast_of_lt hq
    simp only [CMat.ofMatrix, h00, and_self, if_true, dite_true, hmv, Nat.mod_self, Nat.cast_zero] at h
    have := congrArg ZMod.val h
    rw [hmv, ZMod.val_zero] at this
    omega
  · rw [convToNmodMat]
    by_cases hr : A.rows = r
    · rw [decide_eq_true (show (CMat.ofMatrix B).rows = A.rows from hr.symm), check_true, Res.bind_ok,
        decide_eq_false (show ¬ (CMat.ofMatrix B).cols = A.cols from fun hc => hne.elim (fun h => h hr) (fun h => h hc.symm)),
        check_false]
      rfl
    · rw [decide_eq_false (show ¬ (CMat.ofMatrix B).rows = A.rows from fun h => hr h.symm), check_false]
      rfl

/-- Modulo 7 a matrix over `F_5` survives, modulo 3 the entry 4 becomes 1. -/
example : (convToNmodMat ZMod.val 7 (CMat.mk' 1 1 (fun _ _ => 0)) (CMat.ofMatrix (!![4] : Matrix (Fin 1) (Fin 1) (ZMod 5)))).map
      (fun A => A.e 0 0) = .ok 4 ∧
    (convToNmodMat ZMod.val 3 (CMat.mk' 1 1 (fun _ _ => 0)) (CMat.ofMatrix (!![4] : Matrix (Fin 1) (Fin 1) (ZMod 5)))).map
      (fun A => A.e 0 0) = .ok 1 := by decide +kernel

/-! ### C80 -/

/-- The words of a vector modulo `m`. -/
def Spec.words {m k : Nat} (v : Fin k → ZMod m) : List Nat := List.ofFn (fun i => (v i).val)

/-- The rows of words of a matrix modulo `m`. -/
def Spec.wordRows {m r c : Nat} (A : Matrix (Fin r) (Fin c) (ZMod m)) : List (List Nat) := List.ofFn (fun i => words (A i))

theorem words_length {m k : Nat} (v : Fin k → ZMod m) : (words v).length = k := List.length_ofFn

theorem aget_words {m k : Nat} (v : Fin k → ZMod m) (i : Fin k) : aget (words v) i = .ok (v i).val := by
  rw [aget_of_lt _ _ (by rw [words_length]; exact i.2)]
  simp [words]

theorem aget_wordRows {m r c : Nat} (A : Matrix (Fin r) (Fin c) (ZMod m)) (i : Fin r) : aget (wordRows A) i = .ok (words (A i)) := by
  rw [aget_of_lt _ _ (by simp [wordRows])]
  simp [wordRows]

/-- **C80 (scalar product).**  On reduced words `nmod_vec_dot_compat` returns the reduced scalar product: no call of FLINT
gets an argument it does not accept. -/
theorem C80_dot {m k : Nat} [NeZero m] (v w : Fin k → ZMod m) : nmodDot m (words v) (words w) k = .ok (∑ i, v i * w i).val := by
  have hm : 0 < m := Nat.pos_of_neZero m
  obtain ⟨out, h1, h2⟩ := forRange_inv (n := k) (s := 0)
    (f := fun i acc => do
      let x ← aget (words v) i
      let y ← aget (words w) i
      let z ← nmodMul m x y
      nmodAdd m acc z)
    (fun i acc => acc = (∑ t ∈ Finset.range i, if h : t < k then v ⟨t, h⟩ * w ⟨t, h⟩ else 0).val) (by simp) (fun i acc hi hacc => by
      subst hacc
      refine ⟨_, ?_, rfl⟩
      have e1 := aget_words v ⟨i, hi⟩
      have e2 := aget_words w ⟨i, hi⟩
      simp only at e1 e2
      rw [e1, Res.bind_ok, e2, Res.bind_ok, nmodMul, if_pos ⟨ZMod.val_lt _, ZMod.val_lt _⟩, Res.bind_ok, nmodAdd,
        if_pos ⟨ZMod.val_lt _, Nat.mod_lt _ hm⟩, Finset.sum_range_succ, dif_pos hi, ZMod.val_add, ZMod.val_mul])
  rw [nmodDot, h1, h2, Finset.sum_range]
  congr 3
  funext i
  rw [dif_pos i.2]

example : nmodDot 7 [3, 5, 6] [2, 4, 6] 3 = .ok 6 ∧ nmodDot 7 [3, 9, 6] [2, 4, 6] 3 = .error .ub := by decide +kernel

/-- **C80 (matrix times vector).** -/
theorem C80_matvec {m r c : Nat} [NeZero m] (A : Matrix (Fin r) (Fin c) (ZMod m)) (v : Fin c → ZMod m) (res : List Nat)
    (hres : res.length = r) : nmodMatVec m res (wordRows A) c (words v) = .ok (words (A.mulVec v)) := by
  obtain ⟨out, h1, h2, h3⟩ := forRange_inv (n := r) (s := res)
    (f := fun i res => do
      let row ← aget (wordRows A) i
      let x ← nmodDot m row (words v) c
      aset res i x)
    (fun i out => out.length = r ∧ ∀ t (ht : t < r), t < i → out[t]? = some ((A.mulVec v) ⟨t, ht⟩).val)
    ⟨hres, fun t _ h => absurd h (by omega)⟩ (fun i out hi ho => by
      have e := aget_wordRows A ⟨i, hi⟩
      simp only at e
      refine ⟨out.set i ((A.mulVec v) ⟨i, hi⟩).val, ?_, by simp [ho.1], fun t ht hti => ?_⟩
      · rw [e, Res.bind_ok, C80_dot, Res.bind_ok, aset_of_lt _ _ _ (by omega)]
        rfl
      · rw [List.getElem?_set]
        by_cases hit : i = t
        · subst hit
          rw [if_pos rfl, if_pos (by omega)]
        · rw [if_neg hit, ho.2 t ht (by omega)])
  have hl : (wordRows A).length = r := by simp [wordRows]
  rw [nmodMatVec, hl, h1]
  congr 1
  apply List.ext_getElem?
  intro t
  by_cases ht : t < r
  · rw [h3 t ht ht, words, List.getElem?_ofFn, dif_pos ht]
  · rw [List.getElem?_eq_none (by omega), List.getElem?_eq_none (by rw [words_length]; omega)]

example : nmodMatVec 7 [0, 0] [[1, 2], [3, 4]] 2 [5, 6] = .ok [3, 4] := by decide +kernel

theorem nmodVecSub_words {m c : Nat} [NeZero m] (a b : Fin c → ZMod m) : nmodVecSub m (words a) (words b) c = .ok (words (a - b)) := by
  have hm : 0 < m := Nat.pos_of_neZero m
  have key : ∀ l, (hl : l ≤ c) → (List.range l).mapM (fun i => do
      let x ← aget (words a) i
      let y ← aget (words b) i
      nmodSub m x y) = .ok ((words (a - b)).take l) := by
    intro l
    induction l with
    | zero => intro _; rfl
    | succ k ih =>
      intro hl
      have e1 := aget_words a ⟨k, hl⟩
      have e2 := aget_words b ⟨k, hl⟩
      simp only at e1 e2
      rw [List.range_succ, List.mapM_append, ih (by omega), Res.bind_ok, List.mapM_cons, List.mapM_nil, e1, Res.bind_ok, e2, Res.bind_ok,
        nmodSub, if_pos ⟨ZMod.val_lt _, ZMod.val_lt _⟩, Res.bind_ok, List.take_add_one]
      have hv : (a ⟨k, hl⟩ - b ⟨k, hl⟩).val = ((a ⟨k, hl⟩).val + (m - (b ⟨k, hl⟩).val)) % m := by
        rw [← ZMod.val_natCast, Nat.cast_add, Nat.cast_sub (ZMod.val_lt _).le, ZMod.natCast_zmod_val, ZMod.natCast_zmod_val,
          ZMod.natCast_self, zero_sub, sub_eq_add_neg]
      rw [← hv, words, List.getElem?_ofFn, dif_pos (show k < c from hl)]
      rfl
  rw [nmodVecSub, key c le_rfl]
  congr 1
  exact List.take_of_length_le (by rw [words_length])

/-- **C80 (difference of matrices).**  The result holds the reduced differences, also if it shares its memory with the first
argument, as in solve_system/solve_system.cc:404, or with the second. -/
theorem C80_sub {m r c : Nat} [NeZero m] (A B : Matrix (Fin r) (Fin c) (ZMod m)) (C : List (List Nat)) (hC : C.length = r)
    (hCc : ∀ row ∈ C, row.length = c) :
    nmodMatSub m r c C (fun _ => wordRows A) (fun _ => wordRows B) = .ok (wordRows (A - B)) ∧
    nmodMatSub m r c (wordRows A) id (fun _ => wordRows B) = .ok (wordRows (A - B)) ∧
    nmodMatSub m r c (wordRows B) (fun _ => wordRows A) id = .ok (wordRows (A - B)) := by
  have key : ∀ (C : List (List Nat)) (fA fB : List (List Nat) → List (List Nat)), C.length = r → (∀ row ∈ C, row.length = c) →
      (∀ (i : Fin r) (X : List (List Nat)), X.length = r → (∀ t, i.1 ≤ t → X[t]? = C[t]?) →
        aget (fA X) i = .ok (words (A i)) ∧ aget (fB X) i = .ok (words (B i))) →
      nmodMatSub m r c C fA fB = .ok (wordRows (A - B)) := by
    intro C fA fB hC hCc hf
    rw [nmodMatSub]
    by_cases hc : c = 0
    · subst hc
      rw [if_pos rfl]
      congr 1
      apply List.ext_getElem (by simp [wordRows, hC])
      intro i h1 h2
      rw [List.length_eq_zero_iff.1 (hCc _ (List.getElem_mem h1))]
      simp [wordRows, words]
    rw [if_neg hc]
    obtain ⟨out, h1, h2, h3, -⟩ := forRange_inv (n := r) (s := C)
      (f := fun i C => do
        let a ← aget (fA C) i
        let b ← aget (fB C) i
        let x ← nmodVecSub m a b c
        aset C i x)
      (fun i out => out.length = r ∧ (∀ t (ht : t < r), t < i → out[t]? = some (words ((A - B) ⟨t, ht⟩))) ∧ ∀ t, i ≤ t → out[t]? = C[t]?)
      ⟨hC, fun t _ h => absurd h (by omega), fun _ _ => rfl⟩ (fun i out hi ho => by
        obtain ⟨a1, a2⟩ := hf ⟨i, hi⟩ out ho.1 ho.2.2
        simp only at a1 a2
        refine ⟨out.set i (words ((A - B) ⟨i, hi⟩)), ?_, by simp [ho.1], fun t ht hti => ?_, fun t hti => ?_⟩
        · rw [a1, Res.bind_ok, a2, Res.bind_ok, nmodVecSub_words, Res.bind_ok, aset_of_lt _ _ _ (by omega)]
          rfl
        · rw [List.getElem?_set]
          by_cases hit : i = t
          · subst hit
            rw [if_pos rfl, if_pos (by omega)]
          · rw [if_neg hit, ho.2.1 t ht (by omega)]
        · rw [List.getElem?_set, if_neg (by omega), ho.2.2 t (by omega)])
    rw [h1]
    congr 1
    apply List.ext_getElem?
    intro t
    by_cases ht : t < r
    · rw [h3 t ht ht, wordRows, List.getElem?_ofFn, dif_pos ht]
    · rw [List.getElem?_eq_none (by omega), List.getElem?_eq_none (by simp [wordRows]; omega)]
  have hlen : ∀ M : Matrix (Fin r) (Fin c) (ZMod m), (wordRows M).length = r ∧ ∀ row ∈ wordRows M, row.length = c := by
    intro M
    refine ⟨by simp [wordRows], fun row hrow => ?_⟩
    obtain ⟨i, rfl⟩ := (List.mem_ofFn' _ _).1 hrow
    exact words_length _
  have hsame : ∀ (M : Matrix (Fin r) (Fin c) (ZMod m)) (i : Fin r) (X : List (List Nat)), (∀ t, i.1 ≤ t → X[t]? = (wordRows M)[t]?) →
      aget X i = .ok (words (M i)) := by
    intro M i X h
    have := aget_wordRows M i
    rw [aget, ← h _ le_rfl] at this
    exact this
  exact ⟨key C _ _ hC hCc (fun i X _ _ => ⟨aget_wordRows A i, aget_wordRows B i⟩),
    key _ _ _ (hlen A).1 (hlen A).2 (fun i X _ hX => ⟨hsame A i X hX, aget_wordRows B i⟩),
    key _ _ _ (hlen B).1 (hlen B).2 (fun i X _ hX => ⟨aget_wordRows A i, hsame B i X hX⟩)⟩

example : nmodMatSub 7 2 2 [[1, 2], [3, 4]] id (fun _ => [[2, 1], [0, 6]]) = .ok [[6, 1], [3, 5]] := by decide +kernel

/-! ### C81 -/

/-- **C81 (CPU time).**  The seconds and microseconds added by `timevaldiff_in_seconds` are together the time from `start` to `end`, for
all values of the fields, also those out of range and an `end` before `start`; the microseconds are in `[0, 10^6]`. -/
theorem C81_timeval (s e : TimeVal) :
    1000000 * (timevalDiff s e).1 + (timevalDiff s e).2 = (1000000 * e.sec + e.frac) - (1000000 * s.sec + s.frac) ∧
    0 ≤ (timevalDiff s e).2 ∧ (timevalDiff s e).2 ≤ 1000000 := by
  have h1 : ∀ a b : Int, b < a → (a - b).tdiv 1000000 = (a - b) / 1000000 := fun a b h => Int.tdiv_eq_ediv_of_nonneg (by omega)
  unfold timevalDiff
  by_cases h : e.frac < s.frac
  · simp only [if_pos h, h1 _ _ h]
    by_cases h' : 1000000 < e.frac - (s.frac - 1000000 * ((s.frac - e.frac) / 1000000 + 1))
    · omega
    · simp only [if_neg h']
      omega
  · simp only [if_neg h]
    by_cases h' : 1000000 < e.frac - s.frac
    · simp only [if_pos h', h1 e.frac s.frac (by omega)]
      omega
    · simp only [if_neg h']
      omega

/-- **C81 (wall time).**  The same for `timestamp_diff_in_seconds`; the nanoseconds are in range if those of the arguments are. -/
theorem C81_timestamp (s e : TimeVal) :
    1000000000 * (timestampDiff s e).1 + (timestampDiff s e).2 = (1000000000 * e.sec + e.frac) - (1000000000 * s.sec + s.frac) ∧
    (0 ≤ s.frac ∧ s.frac < 1000000000 → 0 ≤ e.frac ∧ e.frac < 1000000000 →
      0 ≤ (timestampDiff s e).2 ∧ (timestampDiff s e).2 < 1000000000) := by
  unfold timestampDiff
  split <;> simp only <;> omega

/-- From 1.9 s to 3.1 s, and fields out of range. -/
example : timevalDiff ⟨1, 900000⟩ ⟨3, 100000⟩ = (1, 200000) ∧ timevalDiff ⟨1, 2900000⟩ ⟨3, 100000⟩ = (-1, 200000) ∧
    timevalDiff ⟨1, 0⟩ ⟨3, 1000000⟩ = (2, 1000000) ∧ timestampDiff ⟨1, 900000000⟩ ⟨3, 100000000⟩ = (1, 200000000) := by decide +kernel

end Verif
