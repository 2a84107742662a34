import Verif.Model.Display
import Verif.Spec.Python
import Verif.Lemmas.Text
import Mathlib.Tactic.IntervalCases

/-!
Reading what `operator<<=` writes as Python literals.
-/

namespace Verif

open Spec

/-- `sh x` is read by `rd` as `val x`, whatever follows that does not begin with a digit. -/
structure PyRT {α : Type} (sh : α → Str) (rd : Str → Option (Py × Str)) (val : α → Py) (x : α) : Prop where
  head : ∃ c s, sh x = c :: s ∧ isWs c = false ∧ c ≠ ')' ∧ c ≠ ']' ∧ c ≠ '}'
  read : ∀ rest, NoDigit rest → rd (sh x ++ rest) = some (val x, rest)

theorem digitChar_py {k : Nat} (h : k < 10) : isWs (digitChar k) = false ∧ digitChar k ≠ '(' ∧ digitChar k ≠ ')' ∧ digitChar k ≠ '[' ∧
    digitChar k ≠ ']' ∧ digitChar k ≠ '{' ∧ digitChar k ≠ '}' ∧ digitChar k ≠ ',' := by
  interval_cases k <;> decide

/-- The first character of a number. -/
theorem showInt_first (x : Int) : ∃ c s, showInt x = c :: s ∧ isWs c = false ∧ c ≠ '(' ∧ c ≠ ')' ∧ c ≠ '[' ∧ c ≠ ']' ∧ c ≠ '{' ∧
    c ≠ '}' ∧ c ≠ ',' := by
  cases x with
  | ofNat n =>
    obtain ⟨k, s, hk, e⟩ := showNat_head n
    exact ⟨digitChar k, s, e, digitChar_py hk⟩
  | negSucc n => exact ⟨'-', _, rfl, by decide, by decide, by decide, by decide, by decide, by decide, by decide, by decide⟩

theorem pyVal_int (k : Nat) (x : Int) : PyRT showInt (pyVal (k + 1)) Py.int x := by
  obtain ⟨c, s, e, h1, h2, h3, h4, h5, h6, h7, h8⟩ := showInt_first x
  refine ⟨⟨c, s, e, h1, h3, h5, h7⟩, fun rest hr => ?_⟩
  have hread := readInt_show x hr
  rw [e, List.cons_append] at hread ⊢
  rw [pyVal, skipWs_of h1]
  split
  · rename_i h; exact absurd (List.cons.inj h).1 h2
  · rename_i h; exact absurd (List.cons.inj h).1 h4
  · rename_i h; exact absurd (List.cons.inj h).1 h6
  · rw [hread]

theorem pyItems_ws {rd : Str → Option (Py × Str)} {close : Char} {c : Char} (h : isWs c = true) (k : Nat) (s : Str) :
    pyItems rd close k (c :: s) = pyItems rd close k s := by
  cases k with
  | zero => rfl
  | succ k => rw [pyItems, pyItems, skipWs_skip h]

theorem pyPairs_ws {rd : Str → Option (Py × Str)} {c : Char} (h : isWs c = true) (k : Nat) (s : Str) :
    pyPairs rd k (c :: s) = pyPairs rd k s := by
  cases k with
  | zero => rfl
  | succ k => rw [pyPairs, pyPairs, skipWs_skip h]

/-- A list written with commas, and one white space after each of them. -/
theorem pyItems_disp {α : Type} {sh : α → Str} {rd : Str → Option (Py × Str)} {val : α → Py} {close w : Char}
    (hc : close = ')' ∨ close = ']') (hw : isWs w = true) (rest : Str) :
    ∀ (l : List α) (k : Nat), (∀ x ∈ l, PyRT sh rd val x) → l.length < k →
      pyItems rd close k (dispItems [',', w] sh l ++ close :: rest) = some (l.map val, decide (2 ≤ l.length), rest) := by
  have hcw : isWs close = false := by rcases hc with rfl | rfl <;> decide
  have hcd : digitVal close = none := by rcases hc with rfl | rfl <;> decide
  have hcc : ',' ≠ close := by rcases hc with rfl | rfl <;> decide
  intro l
  induction l with
  | nil =>
    intro k _ hk
    obtain ⟨k, rfl⟩ : ∃ j, k = j + 1 := ⟨k - 1, by have : 0 < k := hk; omega⟩
    rw [dispItems, List.nil_append, pyItems, skipWs_of hcw]
    simp
  | cons x l ih =>
    intro k h hk
    obtain ⟨k, rfl⟩ : ∃ j, k = j + 1 := ⟨k - 1, by simp only [List.length_cons] at hk; omega⟩
    obtain ⟨⟨c, s, e, e1, e2, e3, -⟩, hx⟩ := h x (by simp)
    have hce : c ≠ close := by rcases hc with rfl | rfl <;> assumption
    cases l with
    | nil =>
      rw [dispItems, pyItems, e, List.cons_append, skipWs_of e1]
      simp only [if_neg hce]
      rw [← List.cons_append, ← e, hx _ (noDigit_cons hcd)]
      simp only [skipWs_of hcw]
      simp
    | cons y l =>
      rw [dispItems, List.append_assoc, pyItems, e, List.cons_append, skipWs_of e1]
      simp only [if_neg hce]
      rw [← List.cons_append, ← e, List.append_assoc, List.cons_append, List.cons_append, List.nil_append,
        hx _ (noDigit_cons (by decide))]
      simp only [skipWs_of (show isWs ',' = false by decide), if_neg hcc, if_true]
      rw [pyItems_ws hw, ih k (fun z hz => h z (List.mem_cons_of_mem _ hz)) (by simp only [List.length_cons] at hk ⊢; omega)]
      simp

theorem pyPairs_disp {α : Type} {sh sh' : α → Str} {rd : Str → Option (Py × Str)} {key val : α → Py} (rest : Str) :
    ∀ (l : List α) (k : Nat), (∀ x ∈ l, PyRT sh rd key x ∧ PyRT sh' rd val x) → l.length < k →
      pyPairs rd k (dispItems [',', '\n', ' '] (fun x => sh x ++ (':' :: ' ' :: sh' x)) l ++ '}' :: rest) =
        some (l.map (fun x => (key x, val x)), rest) := by
  have hcw : isWs '}' = false := by decide
  intro l
  induction l with
  | nil =>
    intro k _ hk
    obtain ⟨k, rfl⟩ : ∃ j, k = j + 1 := ⟨k - 1, by have : 0 < k := hk; omega⟩
    rw [dispItems, List.nil_append, pyPairs, skipWs_of hcw]
    simp
  | cons x l ih =>
    intro k h hk
    obtain ⟨k, rfl⟩ : ∃ j, k = j + 1 := ⟨k - 1, by simp only [List.length_cons] at hk; omega⟩
    obtain ⟨⟨⟨c, s, e, e1, -, -, e2⟩, hx⟩, ⟨c', s', e', e1', -, -, -⟩, hx'⟩ := h x (by simp)
    have hws : ∀ r, skipWs (' ' :: (sh' x ++ r)) = sh' x ++ r := by
      intro r
      rw [skipWs_skip (by decide), e', List.cons_append, skipWs_of e1']
    cases l with
    | nil =>
      rw [dispItems, List.append_assoc, pyPairs, e, List.cons_append, skipWs_of e1]
      simp only [if_neg e2]
      rw [← List.cons_append, ← e, List.cons_append, List.cons_append, hx _ (noDigit_cons (by decide))]
      simp only [skipWs_of (show isWs ':' = false by decide), if_true]
      rw [hws, hx' _ (noDigit_cons (by decide))]
      simp only [skipWs_of hcw]
      simp
    | cons y l =>
      rw [dispItems, List.append_assoc, List.append_assoc, pyPairs, e, List.cons_append, skipWs_of e1]
      simp only [if_neg e2]
      rw [← List.cons_append, ← e, List.cons_append, List.cons_append, hx _ (noDigit_cons (by decide))]
      simp only [skipWs_of (show isWs ':' = false by decide), if_true]
      rw [List.append_assoc, List.cons_append, List.cons_append, List.cons_append, List.nil_append, hws,
        hx' _ (noDigit_cons (by decide))]
      simp only [skipWs_of (show isWs ',' = false by decide), if_neg (show ¬ (',' = '}') by decide), if_true]
      rw [pyPairs_ws (by decide), pyPairs_ws (by decide),
        ih k (fun z hz => h z (List.mem_cons_of_mem _ hz)) (by simp only [List.length_cons] at hk ⊢; omega)]
      simp

theorem dispItems_length {α : Type} {sep : Str} {sh : α → Str} (hne : ∀ x, sh x ≠ []) : ∀ l : List α,
    l.length ≤ (dispItems sep sh l).length
  | [] => by simp [dispItems]
  | [x] => by
      have := List.length_pos_iff.2 (hne x)
      simp only [dispItems, List.length_singleton]; omega
  | x :: y :: l => by
      have h1 := List.length_pos_iff.2 (hne x)
      have h2 := dispItems_length (sep := sep) hne (y :: l)
      simp only [dispItems, List.length_append, List.length_cons] at h2 ⊢
      omega

/-- What a vector is read as. -/
def pyVec {α : Type} (val : α → Py) : List α → Py
  | [x] => val x
  | l => .tuple (l.map val)

theorem pyVec_of_ne {α : Type} (val : α → Py) {l : List α} (h : l.length ≠ 1) : pyVec val l = .tuple (l.map val) := by
  match l with
  | [] => rfl
  | [x] => exact absurd rfl h
  | x :: y :: l => rfl

/-- A vector written by `operator<<=`. -/
theorem pyVal_dispVec {α : Type} {sh : α → Str} {val : α → Py} (hne : ∀ x, sh x ≠ []) (k : Nat) (l : List α)
    (h : ∀ x ∈ l, PyRT sh (pyVal k) val x) : PyRT (dispVec sh) (pyVal (k + 1)) (pyVec val) l := by
  refine ⟨⟨'(', _, rfl, by decide, by decide, by decide, by decide⟩, fun rest _ => ?_⟩
  rw [dispVec, List.cons_append, List.append_assoc, List.cons_append, List.nil_append, pyVal,
    skipWs_of (show isWs '(' = false by decide)]
  simp only
  rw [pyItems_disp (Or.inl rfl) (by decide) rest l _ h (by
    have := dispItems_length (sep := [',', ' ']) hne l
    simp only [List.length_append]; omega)]
  match l with
  | [] => rfl
  | [x] => rfl
  | x :: y :: l => rfl

theorem dispVec_ne {α : Type} (sh : α → Str) (l : List α) : dispVec sh l ≠ [] := by simp [dispVec]

/-- A list written with `[`, a comma and a newline. -/
theorem pyVal_dispList {α : Type} {sh : α → Str} {val : α → Py} (hne : ∀ x, sh x ≠ []) (k : Nat) (l : List α) (rest : Str)
    (h : ∀ x ∈ l, PyRT sh (pyVal k) val x) :
    pyVal (k + 1) ('[' :: (dispItems [',', '\n'] sh l ++ ']' :: rest)) = some (.list (l.map val), rest) := by
  rw [pyVal, skipWs_of (show isWs '[' = false by decide)]
  simp only
  rw [pyItems_disp (Or.inr rfl) (by decide) rest l _ h (by
    have := dispItems_length (sep := [',', '\n']) hne l
    simp only [List.length_append]; omega)]
  rfl

theorem pyVal_dispMap {R : Type} {sh : R → Str} {val : R → Py} (k : Nat) (m : MonMap R) (rest : Str)
    (h : ∀ e ∈ m, PyRT sh (pyVal (k + 2)) val e.2) :
    pyVal (k + 3) (dispMap sh m ++ rest) = some (.dict (m.map (fun e => (pyVec Py.int e.1, val e.2))), rest) := by
  rw [dispMap, List.cons_append, List.append_assoc, List.cons_append, List.nil_append, pyVal,
    skipWs_of (show isWs '{' = false by decide)]
  simp only
  rw [pyPairs_disp (sh := fun e : IVec × R => dispVec showInt e.1) (sh' := fun e => sh e.2) (key := fun e => pyVec Py.int e.1)
    (val := fun e => val e.2) rest m _ (fun e he => ⟨?_, ?_⟩) (by
      have := dispItems_length (sep := [',', '\n', ' ']) (sh := fun e : IVec × R => dispVec showInt e.1 ++ (':' :: ' ' :: sh e.2))
        (by simp) m
      simp only [List.length_append]; omega)]
  · rfl
  · have := pyVal_dispVec showInt_ne (k + 1) e.1 (fun x _ => pyVal_int k x)
    exact ⟨this.head, this.read⟩
  · exact ⟨(h e he).head, (h e he).read⟩

end Verif
