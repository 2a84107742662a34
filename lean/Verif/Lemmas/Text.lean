import Verif.Model.Text
import Verif.Lemmas.Map
import Mathlib.Tactic.Ring

/-!
Lemmas for the text formats.
-/

namespace Verif

/-- What may follow a number: anything but a digit. -/
def NoDigit (s : Str) : Prop := ∀ c s', s = c :: s' → digitVal c = none

theorem digitVal_digitChar {k : Nat} (h : k < 10) : digitVal (digitChar k) = some k := by
  have : ∀ k : Fin 10, digitVal (digitChar k) = some k.val := by decide
  exact this ⟨k, h⟩

theorem digitChar_facts {k : Nat} (h : k < 10) : isWs (digitChar k) = false ∧ digitChar k ≠ '-' ∧ digitChar k ≠ ']' ∧ digitChar k ≠ '[' := by
  have : ∀ k : Fin 10, isWs (digitChar k) = false ∧ digitChar k ≠ '-' ∧ digitChar k ≠ ']' ∧ digitChar k ≠ '[' := by decide
  exact this ⟨k, h⟩

theorem readDigits_show (n : Nat) : ∀ (acc : Nat) (rest : Str),
    readDigits acc (showNat n ++ rest) = readDigits (acc * 10 ^ (showNat n).length + n) rest := by
  induction n using Nat.strong_induction_on with
  | _ n ih =>
    intro acc rest
    rw [showNat]
    split
    · next h =>
      rw [List.cons_append, List.nil_append, readDigits, digitVal_digitChar h]
      simp only [List.length_cons, List.length_nil]
      congr 1
      ring
    · next h =>
      rw [List.append_assoc, ih (n / 10) (by omega), List.cons_append, List.nil_append, readDigits,
        digitVal_digitChar (Nat.mod_lt _ (by norm_num))]
      simp only [List.length_append, List.length_cons, List.length_nil, zero_add, pow_succ]
      congr 1
      have := Nat.div_add_mod n 10
      rw [mul_add]
      have h3 : 10 * (acc * 10 ^ (showNat (n / 10)).length) = acc * (10 ^ (showNat (n / 10)).length * 10) := by ring
      omega

theorem readDigits_noDigit {acc : Nat} {s : Str} (h : NoDigit s) : readDigits acc s = (acc, s) := by
  cases s with
  | nil => rfl
  | cons c s => rw [readDigits, h c s rfl]

/-- The printed number starts with a digit. -/
theorem showNat_head (n : Nat) : ∃ k s, k < 10 ∧ showNat n = digitChar k :: s := by
  induction n using Nat.strong_induction_on with
  | _ n ih =>
    rw [showNat]
    split
    · next h => exact ⟨n, [], h, rfl⟩
    · next h =>
      obtain ⟨k, s, hk, e⟩ := ih (n / 10) (by omega)
      exact ⟨k, s ++ [digitChar (n % 10)], hk, by rw [e]; rfl⟩

theorem readNat_show (n : Nat) {rest : Str} (h : NoDigit rest) : readNat (showNat n ++ rest) = .ok (n, rest) := by
  obtain ⟨k, s, hk, e⟩ := showNat_head n
  have h1 := readDigits_show n 0 rest
  rw [e] at h1 ⊢
  rw [List.cons_append, readNat, digitVal_digitChar hk]
  simp only [Option.isSome_some, if_true]
  rw [← List.cons_append, h1, zero_mul, zero_add, readDigits_noDigit h]

theorem skipWs_of {c : Char} {s : Str} (h : isWs c = false) : skipWs (c :: s) = c :: s := by
  rw [skipWs, h]; rfl

theorem skipWs_skip {c : Char} {s : Str} (h : isWs c = true) : skipWs (c :: s) = skipWs s := by
  rw [skipWs, h]; rfl

theorem skipWs_idem (s : Str) : skipWs (skipWs s) = skipWs s := by
  induction s with
  | nil => rfl
  | cons c s ih =>
    cases h : isWs c with
    | true => rw [skipWs_skip h, ih]
    | false => rw [skipWs_of h, skipWs_of h]

theorem readInt_show (x : Int) {rest : Str} (h : NoDigit rest) : readInt (showInt x ++ rest) = .ok (x, rest) := by
  cases x with
  | ofNat n =>
    obtain ⟨k, s, hk, e⟩ := showNat_head n
    have hr := readNat_show n h
    obtain ⟨h1, h2, -⟩ := digitChar_facts hk
    rw [showInt, readInt]
    rw [e] at hr ⊢
    rw [List.cons_append] at hr ⊢
    rw [skipWs_of h1]
    split
    · next s' hs => exact absurd (List.cons.inj hs).1 h2
    · rw [hr]; rfl
  | negSucc n =>
    rw [showInt, readInt, List.cons_append, skipWs_of (by decide)]
    simp only
    rw [readNat_show (n + 1) h]
    rfl

/-- A printer and a reader that go together; `ok` says what may follow. -/
structure RoundTrip {α : Type} (sh : α → Str) (rd : Str → Res (α × Str)) (ok : Str → Prop) (x : α) : Prop where
  read : ∀ rest, ok rest → rd (sh x ++ rest) = .ok (x, rest)
  ws : ∀ c s, isWs c = true → rd (c :: s) = rd s
  head : ∃ c s, sh x = c :: s ∧ isWs c = false ∧ c ≠ ']'

theorem readInt_ws (c : Char) (s : Str) (h : isWs c = true) : readInt (c :: s) = readInt s := by
  rw [readInt, readInt, skipWs_skip h]

theorem rt_int (x : Int) : RoundTrip showInt readInt NoDigit x := by
  refine ⟨fun rest h => readInt_show x h, readInt_ws, ?_⟩
  cases x with
  | ofNat n =>
    obtain ⟨k, s, hk, e⟩ := showNat_head n
    obtain ⟨h1, -, h2, -⟩ := digitChar_facts hk
    exact ⟨_, s, e, h1, h2⟩
  | negSucc n => exact ⟨'-', _, rfl, by decide, by decide⟩

theorem rt_mod {q : Nat} [NeZero q] (x : ZMod q) : RoundTrip showMod (readMod q) NoDigit x := by
  refine ⟨fun rest h => ?_, fun c s h => ?_, ?_⟩
  · have := readInt_show (x.val : Int) h
    rw [readMod]
    have e : showMod x = showInt (x.val : Int) := rfl
    rw [e, this, Res.bind_ok]
    simp
  · rw [readMod, readMod, readInt_ws c s h]
  · obtain ⟨k, s, hk, e⟩ := showNat_head x.val
    obtain ⟨h1, -, h2, -⟩ := digitChar_facts hk
    exact ⟨_, s, e, h1, h2⟩

theorem noDigit_cons {c : Char} {s : Str} (h : digitVal c = none) : NoDigit (c :: s) := by
  intro c' s' e
  rw [← (List.cons.inj e).1]; exact h

/-- Items separated by single white space characters `sep` and ended by `tail` white space. -/
theorem readItems_ok {α : Type} {sh : α → Str} {rd : Str → Res (α × Str)} {ok : Str → Prop}
    (hok : ∀ c s, isWs c = true ∨ c = ']' → ok (c :: s)) :
    ∀ (l : List α), (∀ x ∈ l, RoundTrip sh rd ok x) → ∀ (k : Nat) (rest : Str), l.length < k →
      readItems rd k (showItems sh l ++ ']' :: rest) = .ok (l, rest) ∧
      readItems rd k (skipWs (l.flatMap (fun x => sh x ++ ['\n']) ++ ']' :: rest)) = .ok (l, rest)
  | [], _, 0, _, hk => by simp at hk
  | [], _, k + 1, rest, _ => by
    constructor
    · rw [showItems, List.nil_append, readItems, if_pos rfl]
    · rw [List.flatMap_nil, List.nil_append, skipWs_of (by decide), readItems, if_pos rfl]
  | x :: l, _, 0, _, hk => by simp at hk
  | x :: l, h, k + 1, rest, hk => by
    obtain ⟨hr, hws, c, s, hc, hcw, hcb⟩ := h x (by simp)
    obtain ⟨ih1, ih2⟩ := readItems_ok hok l (fun y hy => h y (List.mem_cons_of_mem _ hy)) k rest (by simpa using hk)
    have step : ∀ rest' : Str, ok rest' → readItems rd (k + 1) (sh x ++ rest') = (do
        let r' ← readItems rd k (skipWs rest')
        .ok (x :: r'.1, r'.2)) := by
      intro rest' h'
      have := hr rest' h'
      rw [hc, List.cons_append] at this
      rw [hc, List.cons_append, readItems, if_neg hcb, this, Res.bind_ok]
    constructor
    · cases l with
      | nil =>
        rw [showItems, step _ (hok _ _ (Or.inr rfl)), skipWs_of (by decide)]
        rw [showItems, List.nil_append] at ih1
        rw [ih1, Res.bind_ok]
      | cons y l =>
        obtain ⟨-, -, c', s', hc', hcw', -⟩ := h y (by simp)
        rw [showItems, List.append_assoc, List.cons_append, step _ (hok _ _ (Or.inl (by decide))), skipWs_skip (by decide)]
        have e : skipWs (showItems sh (y :: l) ++ ']' :: rest) = showItems sh (y :: l) ++ ']' :: rest := by
          cases l with
          | nil => rw [showItems, hc', List.cons_append, skipWs_of hcw']
          | cons z l => rw [showItems, hc', List.cons_append, List.cons_append, skipWs_of hcw']
        rw [e, ih1, Res.bind_ok]
    · rw [List.flatMap_cons, List.append_assoc, List.append_assoc, hc, List.cons_append, skipWs_of hcw, ← List.cons_append,
        ← hc, List.cons_append, List.nil_append, step _ (hok _ _ (Or.inl (by decide))), skipWs_skip (by decide), ih2, Res.bind_ok]

theorem showItems_length {α : Type} {sh : α → Str} (hne : ∀ x, sh x ≠ []) : ∀ l : List α, l.length ≤ (showItems sh l).length
  | [] => le_refl _
  | [x] => by
    rw [showItems]
    exact List.length_pos_iff.2 (hne x)
  | x :: y :: l => by
    have := showItems_length hne (y :: l)
    rw [showItems, List.length_append, List.length_cons, List.length_cons]
    have := List.length_pos_iff.2 (hne x)
    simp only [List.length_cons] at *
    omega

theorem flatMap_length {α : Type} {sh : α → Str} : ∀ l : List α, l.length ≤ (l.flatMap (fun x => sh x ++ ['\n'])).length
  | [] => le_refl _
  | x :: l => by
    have := flatMap_length (sh := sh) l
    rw [List.flatMap_cons, List.length_append, List.length_append]
    simp only [List.length_cons, List.length_nil]
    omega

theorem readVec_ws {α : Type} {rd : Str → Res (α × Str)} (c : Char) (s : Str) (h : isWs c = true) : readVec rd (c :: s) = readVec rd s := by
  rw [readVec, readVec, skipWs_skip h]

theorem rt_vec {α : Type} {sh : α → Str} {rd : Str → Res (α × Str)} {ok : Str → Prop}
    (hok : ∀ c s, isWs c = true ∨ c = ']' → ok (c :: s)) (hne : ∀ x, sh x ≠ []) (l : List α)
    (h : ∀ x ∈ l, RoundTrip sh rd ok x) : RoundTrip (showVec sh) (readVec rd) (fun _ => True) l := by
  refine ⟨fun rest _ => ?_, readVec_ws, ⟨'[', _, rfl, by decide, by decide⟩⟩
  rw [readVec, showVec, List.cons_append, skipWs_of (by decide)]
  simp only
  rw [List.append_assoc, List.cons_append, List.nil_append]
  have hk : l.length < (showItems sh l ++ ']' :: rest).length + 1 := by
    have := showItems_length hne l
    rw [List.length_append]; omega
  have e : skipWs (showItems sh l ++ ']' :: rest) = showItems sh l ++ ']' :: rest := by
    cases l with
    | nil => exact skipWs_of (by decide)
    | cons x l =>
      obtain ⟨-, -, c, s, hc, hcw, -⟩ := h x (by simp)
      cases l with
      | nil => rw [showItems, hc, List.cons_append, skipWs_of hcw]
      | cons y l => rw [showItems, hc, List.cons_append, List.cons_append, skipWs_of hcw]
  rw [e]
  exact (readItems_ok hok l h _ rest hk).1

/-- A printed matrix is read back by the reader for vectors of vectors. -/
theorem rt_mat {α : Type} {sh : α → Str} {rd : Str → Res (α × Str)} {ok : Str → Prop}
    (hok : ∀ c s, isWs c = true ∨ c = ']' → ok (c :: s)) (hne : ∀ x, sh x ≠ []) (rows : List (List α))
    (h : ∀ r ∈ rows, ∀ x ∈ r, RoundTrip sh rd ok x) (rest : Str) :
    readVec (readVec rd) (showMat sh rows ++ rest) = .ok (rows, rest) := by
  rw [readVec, showMat, List.cons_append, skipWs_of (by decide)]
  simp only
  rw [List.append_assoc, List.cons_append, List.nil_append]
  refine (readItems_ok (sh := showVec sh) (fun _ _ _ => trivial) rows (fun r hr => rt_vec hok hne r (h r hr)) _ rest ?_).2
  have := flatMap_length (sh := showVec sh) rows
  rw [List.length_append]; omega

theorem noDigit_sep (c : Char) (s : Str) (h : isWs c = true ∨ c = ']') : NoDigit (c :: s) := by
  apply noDigit_cons
  rcases h with h | h
  · simp only [isWs, Bool.or_eq_true, decide_eq_true_eq] at h
    rcases h with ((((h | h) | h) | h) | h) | h <;> rw [h] <;> decide
  · rw [h]; decide

theorem showInt_ne (x : Int) : showInt x ≠ [] := by
  obtain ⟨-, -, c, s, h, -⟩ := rt_int x
  rw [h]; simp

theorem showMod_ne {q : Nat} (x : ZMod q) : showMod x ≠ [] := by
  obtain ⟨k, s, -, e⟩ := showNat_head x.val
  rw [showMod, e]; simp

theorem rt_intVec (l : List Int) : RoundTrip (showVec showInt) (readVec readInt) (fun _ => True) l :=
  rt_vec noDigit_sep showInt_ne l (fun x _ => rt_int x)

theorem rt_modVec {q : Nat} [NeZero q] (l : List (ZMod q)) : RoundTrip (showVec showMod) (readVec (readMod q)) (fun _ => True) l :=
  rt_vec noDigit_sep showMod_ne l (fun x _ => rt_mod x)

theorem rt_modMat {q : Nat} [NeZero q] (rows : List (List (ZMod q))) (rest : Str) :
    readVec (readVec (readMod q)) (showMat showMod rows ++ rest) = .ok (rows, rest) :=
  rt_mat noDigit_sep showMod_ne rows (fun _ _ x _ => rt_mod x) rest

end Verif
