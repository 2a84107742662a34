import Verif.Model.Tools
import Verif.Spec.Tools
import Verif.Lemmas.Vec
import Mathlib.Data.Nat.Choose.Basic
import Mathlib.Data.Nat.Factorial.Basic
import Mathlib.Data.Nat.Choose.Factorization
import Mathlib.NumberTheory.Padics.PadicVal.Basic
import Mathlib.Tactic.Linarith
import Mathlib.Tactic.Ring
import Mathlib.Algebra.BigOperators.Intervals

namespace Verif

/-! ### binomial -/

theorem prodFrom_succ_nat (k cnt : Nat) :
    prodFrom ((k : Int) + 1) cnt = ((k + 1).ascFactorial cnt : Nat) := by
  induction cnt with
  | zero => simp [prodFrom]
  | succ c ih => rw [prodFrom, ih, Nat.ascFactorial_succ]; push_cast; ring

theorem prodFrom_one (cnt : Nat) : prodFrom 1 cnt = (cnt.factorial : Nat) := by
  have := prodFrom_succ_nat 0 cnt
  simpa [Nat.one_ascFactorial] using this

theorem prodFrom_choose (n k : Nat) (h : k ≤ n) :
    prodFrom ((k : Int) + 1) (n - k) = prodFrom 1 (n - k) * (n.choose k : Nat) := by
  rw [prodFrom_succ_nat, prodFrom_one, Nat.ascFactorial_eq_factorial_mul_choose,
    show k + (n - k) = n by omega, Nat.choose_symm h, Nat.cast_mul]

theorem prodFrom_one_pos (cnt : Nat) : 0 < prodFrom 1 cnt := by
  rw [prodFrom_one]; exact_mod_cast Nat.factorial_pos _

theorem prodFrom_div (n k : Nat) (h : k ≤ n) :
    prodFrom ((k : Int) + 1) (n - k) / prodFrom 1 (n - k) = (n.choose k : Nat) := by
  rw [prodFrom_choose n k h, Int.mul_ediv_cancel_left _ (prodFrom_one_pos _).ne']

theorem binomialZZ_eq (n k : Nat) (h : k ≤ n) :
    binomialZZ n k = .ok ((n.choose k : Nat) : Int) := by
  have h1 : ((n : Int) - k).toNat = n - k := by omega
  have h2 : (n : Int) ≥ k := by omega
  simp only [binomialZZ, decide_eq_true h2, h1, prodFrom_div n k h]
  rfl

theorem binomial_eq (n k : Nat) (h : k ≤ n) :
    binomial n k =
      if n.choose k < 2 ^ 64 then .ok (convLong ((n.choose k : Nat) : Int))
      else .error .assertFail := by
  have h1 : ((n : Int) - k).toNat = n - k := by omega
  have h2 : (n : Int) ≥ k := by omega
  simp only [binomial, decide_eq_true h2, h1, prodFrom_div n k h, check_true, Res.bind_ok,
    fits8Bytes, Int.natAbs_natCast]
  by_cases h3 : n.choose k < 2 ^ 64
  · rw [decide_eq_true h3, if_pos h3]; rfl
  · rw [decide_eq_false h3, if_neg h3]; rfl

theorem convLong_small (x : Nat) (h : x < 2 ^ 63) : convLong (x : Int) = x := by
  simp only [convLong, Int.bmod]
  have e : ((2 ^ 64 : Nat) : Int) = 18446744073709551616 := by norm_num
  rw [e]
  split <;> omega

theorem convLong_window (x : Nat) (h : 2 ^ 63 ≤ x) (h' : x < 2 ^ 64) :
    convLong (x : Int) = (x : Int) - 2 ^ 64 := by
  simp only [convLong, Int.bmod]
  have e : ((2 ^ 64 : Nat) : Int) = 18446744073709551616 := by norm_num
  rw [e]
  split <;> omega

/-! ### tuple_list_generator -/

theorem scanDown_zeros (pre : IVec) (x y : Int) (m : Nat) (hy : 0 < y) (j : Nat) (hj : j ≤ m) :
    scanDown (pre ++ x :: y :: List.replicate m 0) (pre.length + 1 + j) = some (pre.length + 1) := by
  induction j with
  | zero =>
    rw [Nat.add_zero, scanDown, if_pos]
    simp [List.getD_eq_getElem?_getD, hy]
  | succ j ih =>
    rw [show pre.length + 1 + (j + 1) = (pre.length + 1 + j) + 1 by omega, scanDown, if_neg,
      ih (by omega)]
    have : (pre ++ x :: y :: List.replicate m 0).getD (pre.length + 1 + j + 1) 0 = 0 := by
      rw [List.getD_eq_getElem?_getD, List.getElem?_append_right (by omega),
        show pre.length + 1 + j + 1 - pre.length = j + 2 by omega]
      simp [List.getElem?_replicate]
      split <;> rfl
    omega

theorem getD_append_len (a : IVec) (x : Int) (b : IVec) : (a ++ x :: b).getD a.length 0 = x := by
  simp [List.getD_eq_getElem?_getD]

theorem set_append_len (a : IVec) (x y : Int) (b : IVec) :
    (a ++ x :: b).set a.length y = a ++ y :: b := by
  simp [List.set_append_right]

/-- The clearing loop on `pre' ++ z :: zeros`. -/
theorem clearLoop_eq (a : IVec) (l : IVec) (b : IVec) (s : Int) :
    clearLoop (a ++ l ++ b) a.length l.length s = (s + l.sum, a ++ List.replicate l.length 0 ++ b) := by
  induction l generalizing a s with
  | nil => simp [clearLoop]
  | cons x l ih =>
    simp only [List.length_cons, clearLoop, List.append_assoc, List.cons_append]
    rw [getD_append_len, set_append_len]
    have := ih (a ++ [0]) (s + x)
    simp only [List.append_assoc, List.length_append, List.length_cons, List.length_nil,
      List.cons_append, List.nil_append, Nat.zero_add] at this
    rw [this]
    simp [List.replicate_succ, Int.add_assoc]

/-- What one odometer step does: the last positive entry `y` (not in position 0) gives one unit
to its left neighbour, the rest goes to the end. -/
theorem tupleStep_eq (pre : IVec) (x y : Int) (m : Nat) (hy : 0 < y) :
    tupleStep (pre ++ x :: y :: List.replicate m 0) =
      pre ++ (x + 1) :: (List.replicate m 0 ++ [y - 1]) := by
  have hlen : (pre ++ x :: y :: List.replicate m 0).length = pre.length + 2 + m := by
    simp; omega
  unfold tupleStep
  simp only [hlen]
  rw [show pre.length + 2 + m - 1 = pre.length + 1 + m by omega, scanDown_zeros pre x y m hy m le_rfl]
  simp only [Nat.add_sub_cancel]
  rw [getD_append_len, set_append_len]
  have e : pre ++ (x + 1) :: y :: List.replicate m 0
      = (pre ++ [x + 1]) ++ y :: List.replicate m 0 := by simp
  have hl : pre.length + 1 = (pre ++ [x + 1]).length := by simp
  rw [e, hl, getD_append_len, set_append_len]
  cases m with
  | zero =>
    simp only [Nat.add_zero, Nat.sub_self, clearLoop, List.replicate_zero, Int.add_zero, getD_append_len, set_append_len, List.nil_append]
    simp
  | succ m =>
    have e2 : (pre ++ [x + 1]) ++ (y - 1) :: List.replicate (m + 1) 0
        = (pre ++ [x + 1]) ++ ((y - 1) :: List.replicate m 0) ++ [0] := by
      rw [List.replicate_succ']; simp
    have hcl := clearLoop_eq (pre ++ [x + 1]) ((y - 1) :: List.replicate m 0) [0] 0
    have hl2 : (pre ++ [x + 1]).length + (m + 1) - (pre ++ [x + 1]).length
        = ((y - 1) :: List.replicate m 0).length := by simp
    rw [e2, hl2, hcl]
    simp only []
    have hl3 : (pre ++ [x + 1]).length + (m + 1) =
        (pre ++ [x + 1] ++ List.replicate ((y - 1) :: List.replicate m 0).length 0).length := by
      simp; omega
    rw [hl3, getD_append_len, set_append_len]
    simp

/-- Recursive list of all tuples (`n + 1` variables, degree `d`), in lexicographic order. -/
def comps : Nat → Nat → List IVec
  | 0, d => [[(d : Int)]]
  | n + 1, 0 => (comps n 0).map (0 :: ·)
  | n + 1, d + 1 =>
      (comps n (d + 1)).map (0 :: ·) ++ (comps (n + 1) d).map (fun t => t.set 0 (t.getD 0 0 + 1))

/-- Bump the head. -/
def bump (t : IVec) : IVec := t.set 0 (t.getD 0 0 + 1)

@[simp] theorem bump_cons (x : Int) (t : IVec) : bump (x :: t) = (x + 1) :: t := by simp [bump]
@[simp] theorem bump_length (t : IVec) : (bump t).length = t.length := by simp [bump]

theorem comps_succ_succ (n d : Nat) : comps (n + 1) (d + 1) =
    (comps n (d + 1)).map (0 :: ·) ++ (comps (n + 1) d).map bump := by
  rw [comps]; rfl

theorem comps_length (n d : Nat) : (comps n d).length = (d + n).choose n := by
  induction n generalizing d with
  | zero => simp [comps]
  | succ n ih =>
    induction d with
    | zero => simp [comps, ih]
    | succ d ihd =>
      rw [comps_succ_succ, List.length_append, List.length_map, List.length_map, ih, ihd,
        show d + 1 + (n + 1) = (d + n + 1) + 1 by omega, Nat.choose_succ_succ,
        show d + 1 + n = d + n + 1 by omega, show d + (n + 1) = d + n + 1 by omega]

theorem comps_ne_nil (n d : Nat) : comps n d ≠ [] := by
  intro h
  have := comps_length n d
  rw [h] at this
  have h2 := Nat.choose_pos (show n ≤ d + n by omega)
  simp at this; omega

theorem mem_comps (n d : Nat) (t : IVec) : t ∈ comps n d ↔ Spec.IsTuple (n + 1) d t := by
  induction n generalizing d t with
  | zero =>
    simp only [comps, List.mem_singleton, Spec.IsTuple, Spec.NonNeg, Spec.deg]
    constructor
    · rintro rfl; simp
    · rintro ⟨h1, -, h3⟩
      match t, h1 with
      | [x], _ => simpa using h3
  | succ n ih =>
    induction d generalizing t with
    | zero =>
      simp only [comps, List.mem_map, ih, Spec.IsTuple, Spec.NonNeg, Spec.deg]
      constructor
      · rintro ⟨a, ⟨h1, h2, h3⟩, rfl⟩
        refine ⟨by simp [h1], by simpa using h2, by simpa using h3⟩
      · rintro ⟨h1, h2, h3⟩
        match t, h1 with
        | x :: t, h1 =>
          simp only [List.mem_cons, forall_eq_or_imp, List.sum_cons] at h2 h3
          have hs : 0 ≤ t.sum := List.sum_nonneg h2.2
          have hx := h2.1
          refine ⟨t, ⟨by simpa using h1, h2.2, by omega⟩, ?_⟩
          congr 1; omega
    | succ d ihd =>
      rw [comps_succ_succ]
      simp only [List.mem_append, List.mem_map, ih, ihd, Spec.IsTuple, Spec.NonNeg, Spec.deg]
      constructor
      · rintro (⟨a, ⟨h1, h2, h3⟩, rfl⟩ | ⟨a, ⟨h1, h2, h3⟩, rfl⟩)
        · refine ⟨by simp [h1], by simpa using h2, by simpa using h3⟩
        · match a, h1 with
          | x :: a, h1 =>
            simp only [List.mem_cons, forall_eq_or_imp, List.sum_cons] at h2 h3
            refine ⟨by simpa using h1, ?_, ?_⟩
            · simp only [bump_cons, List.mem_cons, forall_eq_or_imp]; exact ⟨by omega, h2.2⟩
            · simp only [bump_cons, List.sum_cons]; push_cast; omega
      · rintro ⟨h1, h2, h3⟩
        match t, h1 with
        | x :: t, h1 =>
          simp only [List.mem_cons, forall_eq_or_imp, List.sum_cons] at h2 h3
          by_cases hx : x = 0
          · left; exact ⟨t, ⟨by simpa using h1, h2.2, by omega⟩, by rw [hx]⟩
          · right
            refine ⟨(x - 1) :: t, ⟨by simpa using h1, ?_, ?_⟩, by simp⟩
            · simp only [List.mem_cons, forall_eq_or_imp]; exact ⟨by omega, h2.2⟩
            · simp only [List.sum_cons]; push_cast at h3; omega

theorem lexLt_cons (x : Int) {s t : IVec} (h : Spec.LexLt s t) : Spec.LexLt (x :: s) (x :: t) := by
  obtain ⟨k, ha, hb, h1, h2⟩ := h
  refine ⟨k + 1, by simpa using ha, by simpa using hb, ?_, by simpa using h2⟩
  intro i hi
  cases i with
  | zero => rfl
  | succ i => simpa using h1 i (by omega)

theorem lexLt_head {x y : Int} (s t : IVec) (h : x < y) : Spec.LexLt (x :: s) (y :: t) :=
  ⟨0, by simp, by simp, by intro i hi; omega, by simpa using h⟩

theorem lexLt_bump {s t : IVec} (h : Spec.LexLt s t) : Spec.LexLt (bump s) (bump t) := by
  obtain ⟨k, ha, hb, h1, h2⟩ := h
  match s, t with
  | x :: s, y :: t =>
    refine ⟨k, by simpa using ha, by simpa using hb, ?_, ?_⟩
    · intro i hi
      have := h1 i hi
      cases i with
      | zero => simpa using this
      | succ i => simpa using this
    · cases k with
      | zero => simpa using h2
      | succ k => simpa using h2
  | [], _ => simp at ha
  | _ :: _, [] => simp at hb

theorem comps_sorted (n d : Nat) : (comps n d).Pairwise Spec.LexLt := by
  induction n generalizing d with
  | zero => simp [comps]
  | succ n ih =>
    induction d with
    | zero =>
      rw [comps, List.pairwise_map]
      exact (ih 0).imp (lexLt_cons 0)
    | succ d ihd =>
      rw [comps_succ_succ, List.pairwise_append, List.pairwise_map, List.pairwise_map]
      refine ⟨(ih _).imp (lexLt_cons 0), ihd.imp lexLt_bump, ?_⟩
      simp only [List.mem_map]
      rintro _ ⟨a, -, rfl⟩ _ ⟨b, hb, rfl⟩
      rw [mem_comps] at hb
      obtain ⟨h1, h2, -⟩ := hb
      match b, h1 with
      | x :: b, _ =>
        have := h2 x (by simp)
        rw [bump_cons]
        exact lexLt_head _ _ (by omega)

/-- Successive tuples of the odometer. -/
def Adj (s t : IVec) : Prop :=
  ∃ (pre : IVec) (x y : Int) (m : Nat), 0 < y ∧ s = pre ++ x :: y :: List.replicate m 0 ∧
    t = pre ++ (x + 1) :: (List.replicate m 0 ++ [y - 1])

theorem Adj.cons (a : Int) {s t : IVec} (h : Adj s t) : Adj (a :: s) (a :: t) := by
  obtain ⟨pre, x, y, m, hy, rfl, rfl⟩ := h
  exact ⟨a :: pre, x, y, m, hy, rfl, rfl⟩

theorem Adj.bump {s t : IVec} (h : Adj s t) : Adj (bump s) (bump t) := by
  obtain ⟨pre, x, y, m, hy, rfl, rfl⟩ := h
  cases pre with
  | nil => exact ⟨[], x + 1, y, m, hy, by simp, by simp⟩
  | cons z pre => exact ⟨(z + 1) :: pre, x, y, m, hy, by simp, by simp⟩

theorem comps_head (n d : Nat) : (comps n d).head? = some (List.replicate n 0 ++ [(d : Int)]) := by
  induction n generalizing d with
  | zero => simp [comps]
  | succ n ih =>
    cases d with
    | zero => simp [comps, ih, List.replicate_succ]
    | succ d =>
      rw [comps_succ_succ]
      simp [ih, List.replicate_succ]

theorem comps_last (n d : Nat) : (comps n d).getLast? = some ((d : Int) :: List.replicate n 0) := by
  induction n generalizing d with
  | zero => simp [comps]
  | succ n ih =>
    induction d with
    | zero => simp [comps, ih, List.replicate_succ]
    | succ d ihd =>
      rw [comps_succ_succ, List.getLast?_append, List.getLast?_map, ihd]
      simp

theorem comps_chain (n d : Nat) : (comps n d).IsChain Adj := by
  induction n generalizing d with
  | zero => simp [comps]
  | succ n ih =>
    induction d with
    | zero =>
      rw [comps, List.isChain_map]
      exact (ih 0).imp (fun a b h => Adj.cons 0 h)
    | succ d ihd =>
      rw [comps_succ_succ, List.isChain_append, List.isChain_map, List.isChain_map]
      refine ⟨(ih _).imp (fun a b h => Adj.cons 0 h), ihd.imp (fun a b h => Adj.bump h), ?_⟩
      intro a ha b hb
      rw [List.getLast?_map, comps_last] at ha
      rw [List.head?_map, comps_head] at hb
      simp only [Option.map_some, Option.mem_def, Option.some.injEq] at ha hb
      subst ha hb
      refine ⟨[], 0, (d + 1 : Nat), n, by omega, by simp, ?_⟩
      simp [List.replicate_succ]

theorem tupleLoop_chain (d : Int) (t : IVec) (l : List IVec)
    (hc : (t :: l).IsChain Adj)
    (hlt : ∀ s ∈ (t :: l).dropLast, s.getD 0 0 < d)
    (hlast : ¬ ((t :: l).getLast (by simp)).getD 0 0 < d) :
    tupleLoop d l.length t = .ok l := by
  induction l generalizing t with
  | nil =>
    simp only [List.getLast_singleton] at hlast
    simp only [List.length_nil, tupleLoop, if_neg hlast]
  | cons s l ih =>
    have h1 : t.getD 0 0 < d := hlt t (by simp)
    have h2 : tupleStep t = s := by
      have := hc.rel
      obtain ⟨pre, x, y, m, hy, rfl, rfl⟩ := this
      exact tupleStep_eq pre x y m hy
    simp only [List.length_cons, tupleLoop, if_pos h1, h2]
    rw [ih s hc.tail]
    · rfl
    · intro r hr
      apply hlt
      rw [List.dropLast_cons_of_ne_nil (by simp)]
      exact List.mem_cons_of_mem _ hr
    · simpa using hlast

theorem comps_loop (n d : Nat) :
    tupleLoop d ((comps n d).length - 1) (List.replicate n 0 ++ [(d : Int)])
      = .ok (comps n d).tail := by
  have hh := comps_head n d
  obtain ⟨t, l, htl⟩ := List.exists_cons_of_ne_nil (comps_ne_nil n d)
  rw [htl] at hh
  simp only [List.head?_cons, Option.some.injEq] at hh
  have hlast := comps_last n d
  rw [htl, ← hh]
  simp only [List.length_cons, Nat.add_sub_cancel, List.tail_cons]
  apply tupleLoop_chain
  · rw [← htl]; exact comps_chain n d
  · intro s hs
    -- an earlier tuple is lexicographically smaller than the last one
    have hsort := comps_sorted n d
    have hl2 : (t :: l).getLast (by simp) = (d : Int) :: List.replicate n 0 := by
      have : (t :: l).getLast? = some ((t :: l).getLast (by simp)) := List.getLast?_eq_getLast_of_ne_nil (by simp)
      rw [htl, this] at hlast
      simpa using hlast
    rw [htl] at hsort
    have hcat := List.dropLast_append_getLast (show (t :: l) ≠ [] by simp)
    rw [← hcat, List.pairwise_append] at hsort
    have hlt := hsort.2.2 s hs _ (List.mem_singleton.2 rfl)
    rw [hl2] at hlt
    have hmem : s ∈ comps n d := by rw [htl]; exact List.dropLast_subset _ hs
    rw [mem_comps] at hmem
    obtain ⟨h1, h2, h3⟩ := hmem
    match s, h1 with
    | x :: s, h1 =>
      simp only [List.getD_cons_zero]
      by_contra hx
      have hsum : 0 ≤ s.sum := List.sum_nonneg (fun y hy => h2 y (List.mem_cons_of_mem _ hy))
      simp only [Spec.deg, List.sum_cons] at h3
      obtain ⟨k, ha, hb, e1, e2⟩ := hlt
      cases k with
      | zero => simp at e2; omega
      | succ k =>
        have e0 := e1 0 (by omega)
        simp only [List.getElem_cons_zero] at e0
        have hk : k < s.length := by simpa using ha
        simp only [List.getElem_cons_succ, List.getElem_replicate] at e2
        have := h2 s[k] (List.mem_cons_of_mem _ (List.getElem_mem hk))
        omega
  · have hl2 : (t :: l).getLast (by simp) = (d : Int) :: List.replicate n 0 := by
      have : (t :: l).getLast? = some ((t :: l).getLast (by simp)) := List.getLast?_eq_getLast_of_ne_nil (by simp)
      rw [htl, this] at hlast
      simpa using hlast
    rw [hl2]; simp

theorem binomial_tuple_args (d n : Nat) :
    binomial ((d : Int) + ((n + 1 : Nat) : Int) - 1) (((n + 1 : Nat) : Int) - 1)
      = binomial ((d + n : Nat) : Int) (n : Nat) := by
  congr 1 <;> push_cast <;> ring

theorem tupleListGenerator_eq (d n : Nat) (h : (d + n).choose n < 2 ^ 63) :
    tupleListGenerator d (n + 1) = .ok (comps n d) := by
  unfold tupleListGenerator
  rw [binomial_tuple_args, binomial_eq _ _ (by omega), if_pos (by omega), convLong_small _ h]
  have hpos : 0 < (d + n).choose n := Nat.choose_pos (by omega)
  simp only [Res.bind_ok]
  rw [if_neg (by omega), if_neg (by omega)]
  simp only [Nat.add_sub_cancel, Int.toNat_natCast]
  have := comps_loop n d
  rw [comps_length] at this
  rw [this]
  have hh := comps_head n d
  obtain ⟨t, l, htl⟩ := List.exists_cons_of_ne_nil (comps_ne_nil n d)
  have hlen := comps_length n d
  rw [htl] at hh hlen ⊢
  simp only [List.head?_cons, Option.some.injEq] at hh
  simp only [Res.bind_ok, List.tail_cons, ← hh, hlen, decide_true, check_true, Res.pure_eq]

/-! ### valuation_of_factorial, factorial_p_adic -/

theorem digitSumLoop_eq (p : Nat) (hp : 2 ≤ p) (n s : Nat) :
    digitSumLoop p hp n s = s + (p.digits n).sum := by
  induction n using Nat.strong_induction_on generalizing s with
  | _ n ih =>
    rw [digitSumLoop]
    split
    · next h => subst h; simp
    · next h =>
      rw [ih (n / p) (Nat.div_lt_self (Nat.pos_of_ne_zero h) (by omega)),
        Nat.digits_def' (show 1 < p by omega) (Nat.pos_of_ne_zero h)]
      simp [Nat.add_assoc]

theorem valuationOfFactorial_eq (n p : Nat) (hp : p.Prime) :
    valuationOfFactorial n p = .ok (padicValNat p n.factorial : Nat) := by
  have h2 := hp.two_le
  have := Fact.mk hp
  unfold valuationOfFactorial
  rw [dif_pos h2, digitSumLoop_eq, Nat.zero_add]
  have key := sub_one_mul_padicValNat_factorial (p := p) n
  have hle := Nat.digit_sum_le p n
  have : ((n : Int) - ((p.digits n).sum : Nat)) = ((p : Int) - 1) * (padicValNat p n.factorial : Nat) := by
    have h3 : ((p - 1 : Nat) : Int) = (p : Int) - 1 := by omega
    rw [← h3, ← Nat.cast_mul, key]; omega
  rw [this, Int.mul_ediv_cancel_left _ (by omega)]

theorem stripLoop_spec (p : Nat) (hp : 2 ≤ p) (t : Nat) (ht : t ≠ 0) :
    t = p ^ (stripLoop p t).1 * (stripLoop p t).2 ∧ ¬ p ∣ (stripLoop p t).2 := by
  induction t using Nat.strong_induction_on with
  | _ t ih =>
    rw [stripLoop]
    split
    · next h =>
      have hd : p ∣ t := Nat.dvd_of_mod_eq_zero h.2.2
      have hne : t / p ≠ 0 := by
        have := Nat.div_pos (Nat.le_of_dvd (Nat.pos_of_ne_zero ht) hd) (by omega); omega
      obtain ⟨h1, h2⟩ := ih (t / p) (Nat.div_lt_self (Nat.pos_of_ne_zero ht) (by omega)) hne
      refine ⟨?_, h2⟩
      simp only []
      rw [pow_succ, mul_comm (p ^ _) p, mul_assoc, ← h1, Nat.mul_div_cancel' hd]
    · next h =>
      refine ⟨by simp, ?_⟩
      intro hd
      exact h ⟨hp, ht, Nat.mod_eq_zero_of_dvd hd⟩

/-- Loop invariant of `factorial_p_adic`. -/
theorem facPLoop_spec {R : Type} [CommRing R] (p : Nat) (hp : p.Prime) (cnt i val m : Nat)
    (hi : 1 ≤ i) (hm : ¬ p ∣ m) :
    ∃ v' m' : ℕ, facPLoop p cnt i val (m : R) = .ok (v', (m' : R)) ∧ ¬ p ∣ m' ∧
      p ^ v' * m' = p ^ val * m * i.ascFactorial cnt := by
  induction cnt generalizing i val m with
  | zero => exact ⟨val, m, rfl, hm, by simp⟩
  | succ c ih =>
    have asc : i.ascFactorial (c + 1) = i * (i + 1).ascFactorial c := by
      have := Nat.succ_ascFactorial i c
      rw [Nat.ascFactorial_succ]; simpa [Nat.succ_eq_add_one] using this.symm
    rw [facPLoop]
    split
    · next h =>
      have hd : ¬ p ∣ i := fun hd => h (Nat.mod_eq_zero_of_dvd hd)
      obtain ⟨v', m', e1, e2, e3⟩ := ih (i + 1) val (m * i) (by omega)
        (fun hd' => (hp.dvd_mul.1 hd').elim hm hd)
      refine ⟨v', m', by rw [← e1]; push_cast; rfl, e2, ?_⟩
      rw [e3, asc]; ring
    · next h =>
      rw [if_neg (by omega)]
      obtain ⟨s1, s2⟩ := stripLoop_spec p hp.two_le i (by omega)
      obtain ⟨v', m', e1, e2, e3⟩ := ih (i + 1) (val + (stripLoop p i).1) (m * (stripLoop p i).2)
        (by omega) (fun hd' => (hp.dvd_mul.1 hd').elim hm s2)
      refine ⟨v', m', by rw [← e1]; push_cast; rfl, e2, ?_⟩
      rw [e3, asc]
      have : p ^ val * m * (i * (i + 1).ascFactorial c)
          = p ^ val * m * ((p ^ (stripLoop p i).1 * (stripLoop p i).2) * (i + 1).ascFactorial c) := by
        rw [← s1]
      rw [this, pow_add]; ring

end Verif
