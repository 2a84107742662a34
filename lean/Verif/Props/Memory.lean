import Verif.Model.Memory
import Mathlib.Tactic.IntervalCases

/-!
Properties C42 and C46.
-/

namespace Verif

/-! ### C42 -/

/-- The array holds the string `s` with its terminating 0. -/
def holds (b : CharBuf) (s : List Nat) : Prop := (∀ i (h : i < s.length), b.byte i = s[i]) ∧ b.byte s.length = 0

theorem strcpyAt_spec : ∀ (s : List Nat) (b : CharBuf) (i : Nat),
    if i + s.length < b.size then
      ∃ b', strcpyAt b i s = .ok b' ∧ b'.size = b.size ∧ (∀ j, j < i → b'.byte j = b.byte j) ∧
        (∀ j (h : j < s.length), b'.byte (i + j) = s[j]) ∧ b'.byte (i + s.length) = 0
    else strcpyAt b i s = .error .ub
  | [], b, i => by
    simp only [List.length_nil, Nat.add_zero]
    split
    · next h =>
      refine ⟨⟨b.size, fun j => if j = i then 0 else b.byte j⟩, by rw [strcpyAt, CharBuf.write, if_pos h], rfl, ?_, ?_, ?_⟩
      · intro j hj
        exact if_neg (by omega)
      · intro j h; exact absurd h (by simp)
      · exact if_pos rfl
    · next h => rw [strcpyAt, CharBuf.write, if_neg h]
  | c :: s, b, i => by
    simp only [List.length_cons]
    rw [strcpyAt, CharBuf.write]
    by_cases hi : i < b.size
    · rw [if_pos hi, Res.bind_ok]
      have ih := strcpyAt_spec s ⟨b.size, fun j => if j = i then c else b.byte j⟩ (i + 1)
      split
      · next h =>
        rw [if_pos (by show i + 1 + s.length < b.size; omega)] at ih
        obtain ⟨b', e, h1, h2, h3, h4⟩ := ih
        refine ⟨b', e, h1, ?_, ?_, ?_⟩
        · intro j hj
          rw [h2 j (by omega)]
          exact if_neg (by omega)
        · intro j hj
          rcases j with _ | j
          · rw [Nat.add_zero, h2 i (by omega)]
            exact if_pos rfl
          · have := h3 j (by simpa using hj)
            rw [show i + (j + 1) = i + 1 + j by omega, this, List.getElem_cons_succ]
        · rw [show i + (s.length + 1) = i + 1 + s.length by omega]; exact h4
      · next h =>
        rw [if_neg (by show ¬ i + 1 + s.length < b.size; omega)] at ih
        exact ih
    · rw [if_neg hi, if_neg (by omega)]
      rfl

theorem findNul_spec {b : CharBuf} {l : Nat} (hl : l < b.size) (h0 : b.byte l = 0) : ∀ (k i : Nat), i ≤ l → l < i + k →
    (∀ j, i ≤ j → j < l → b.byte j ≠ 0) → findNul b k i = .ok l
  | 0, i, h1, h2, _ => by omega
  | k + 1, i, h1, h2, h3 => by
    rw [findNul, CharBuf.read, if_pos (by omega), Res.bind_ok]
    by_cases hi : i = l
    · subst hi; rw [if_pos h0]
    · rw [if_neg (h3 i (le_refl _) (by omega))]
      exact findNul_spec hl h0 k (i + 1) (by omega) (by omega) (fun j hj => h3 j (by omega))

/-- What the three lines do, for any pointer size and any name (a C string: no character is 0). -/
theorem swpName_spec (ptrSize : Nat) (junk : Nat → Nat) (filename : List Nat) (h0 : ∀ c ∈ filename, c ≠ 0) :
    if filename.length + 1 ≤ ptrSize then ∃ b, swpName ptrSize junk filename = .ok b ∧ holds b (filename ++ swpSuffix)
    else swpName ptrSize junk filename = .error .ub := by
  have hc := strcpyAt_spec filename ⟨ptrSize + 4, junk⟩ 0
  rw [swpName]
  by_cases h1 : 0 + filename.length < ptrSize + 4
  · rw [if_pos h1] at hc
    obtain ⟨b, e, hs, -, hb, hn⟩ := hc
    have hs : b.size = ptrSize + 4 := hs
    simp only [Nat.zero_add] at hb hn h1
    rw [e, Res.bind_ok, strcat, findNul_spec (l := filename.length) (by omega) hn _ _ (Nat.zero_le _) (by omega) (fun j _ hj => by
      rw [hb j hj]; exact h0 _ (List.getElem_mem hj)), Res.bind_ok]
    have hd := strcpyAt_spec swpSuffix b filename.length
    have hl : swpSuffix.length = 4 := rfl
    split
    · next h =>
      rw [if_pos (by rw [hl, hs]; omega)] at hd
      obtain ⟨b', e', hs', hk, hb', hn'⟩ := hd
      refine ⟨b', e', fun i hi => ?_, ?_⟩
      · by_cases hi2 : i < filename.length
        · rw [hk i hi2, hb i hi2, List.getElem_append_left hi2]
        · have hi3 : i - filename.length < swpSuffix.length := by rw [List.length_append] at hi; omega
          have := hb' (i - filename.length) (by omega)
          rw [show filename.length + (i - filename.length) = i by omega] at this
          rw [this, List.getElem_append_right (by omega)]
      · rw [List.length_append, hl]; exact hn'
    · next h =>
      rw [if_neg (by rw [hl, hs]; omega)] at hd
      exact hd
  · rw [if_neg h1] at hc
    rw [if_neg (by omega), hc]
    rfl

/-- **C42 fails.**  With pointers of 8 bytes, every name of 8 characters or more makes `save` write outside of
`fileswpname`. -/
theorem C42_swp_name_wrong (junk : Nat → Nat) (filename : List Nat) (h0 : ∀ c ∈ filename, c ≠ 0)
    (hlen : 8 ≤ filename.length) : swpName 8 junk filename = .error .ub := by
  have := swpName_spec 8 junk filename h0
  rw [if_neg (by omega)] at this
  exact this

/-- `"curve.dr"`. -/
example : swpName 8 (fun _ => 0) [99, 117, 114, 118, 101, 46, 100, 114] = .error .ub :=
  C42_swp_name_wrong _ _ (by decide) (by decide)

/-- **C42, what holds.**  For names of at most 7 characters nothing is written outside and the array holds the
name followed by `.swp`. -/
theorem C42_swp_name_partial (junk : Nat → Nat) (filename : List Nat) (h0 : ∀ c ∈ filename, c ≠ 0)
    (hlen : filename.length ≤ 7) :
    ∃ b, swpName 8 junk filename = .ok b ∧ (∀ i (h : i < (filename ++ swpSuffix).length), b.byte i = (filename ++ swpSuffix)[i]) ∧
      b.byte (filename ++ swpSuffix).length = 0 := by
  have := swpName_spec 8 junk filename h0
  rw [if_pos (by omega)] at this
  obtain ⟨b, e, h⟩ := this
  exact ⟨b, e, h.1, h.2⟩

/-- `"a.dr"`. -/
example : ∀ c ∈ ([97, 46, 100, 114] : List Nat), c ≠ 0 := by decide

/-! ### C46 -/

theorem useTimes_live {s : FmpzVar} (h : s ≠ .dangling) : ∀ k, useTimes k s = .ok s
  | 0 => rfl
  | k + 1 => by
    rw [useTimes]
    cases s with
    | small => exact useTimes_live h k
    | big => exact useTimes_live h k
    | dangling => exact absurd rfl h

theorem lifeLoop_one {threads : Nat} (ht : threads ≤ 1) {s : FmpzVar} (h : s ≠ .dangling) : ∀ ks, lifeLoop threads ks s = .ok s
  | [] => rfl
  | k :: ks => by
    rw [lifeLoop, useTimes_live h, Res.bind_ok, if_neg (by omega), Res.bind_ok]
    exact lifeLoop_one ht h ks

theorem lifeLoop_small {threads : Nat} : ∀ ks, lifeLoop threads ks .small = .ok .small
  | [] => rfl
  | k :: ks => by
    rw [lifeLoop, useTimes_live (by decide), Res.bind_ok]
    split
    · exact lifeLoop_small ks
    · exact lifeLoop_small ks

theorem lifeLoop_dangling {threads : Nat} (ht : 1 < threads) : ∀ ks, ks ≠ [] → lifeLoop threads ks .dangling = .error .ub
  | [], h => absurd rfl h
  | 0 :: ks, _ => by
    rw [lifeLoop, useTimes, Res.bind_ok, if_pos ht]
    rfl
  | (k + 1) :: ks, _ => by
    rw [lifeLoop, useTimes]
    rfl

/-- **C46 fails.**  With more than one thread and a modulus that does not fit a small `fmpz`, `frob_ND_flint`
frees its modulus again after it was freed in the loop: for every number `m + N - 1 >= 1` of passes and
every number of terms in them the behaviour is undefined. -/
theorem C46_threads_wrong (threads modulus : Nat) (terms : List Nat) (ht : 1 < threads) (hm : 2 ^ 62 ≤ modulus)
    (hne : terms ≠ []) : modulusLife threads modulus terms = .error .ub := by
  rw [modulusLife, FmpzVar.init, if_neg (by omega)]
  cases terms with
  | nil => exact absurd rfl hne
  | cons k ks =>
    rw [lifeLoop, useTimes_live (by decide), Res.bind_ok, if_pos ht, FmpzVar.clear, Res.bind_ok]
    cases ks with
    | nil => rfl
    | cons a ks =>
      show (lifeLoop threads (a :: ks) .dangling >>= fun s => s.clear) = _
      rw [lifeLoop_dangling ht _ (List.cons_ne_nil a ks)]; rfl

/-- With two passes and a term in the second one it is already used after it was freed. -/
theorem C46_use_after_free_wrong (threads : Nat) (k a : Nat) (ht : 1 < threads) :
    (do let s ← lifeLoop threads [k] .big; useTimes (a + 1) s) = .error .ub := by
  rw [lifeLoop, useTimes_live (by decide), Res.bind_ok, if_pos ht]
  rfl

example : modulusLife 4 (7 ^ 30) [3, 5, 1] = .error .ub :=
  C46_threads_wrong _ _ _ (by decide) (by norm_num) (by decide)

/-- **C46, what holds.**  With one thread, or built without OpenMP, the modulus is freed exactly once, after its
last use, for any number of passes and terms. -/
theorem C46_one_thread_partial (threads modulus : Nat) (terms : List Nat) (ht : threads ≤ 1) :
    modulusLife threads modulus terms = .ok (if modulus < 2 ^ 62 then .small else .dangling) := by
  rw [modulusLife, FmpzVar.init]
  split
  · rw [lifeLoop_one ht (by decide)]; rfl
  · rw [lifeLoop_one ht (by decide)]; rfl

/-- **C46, what holds.**  A modulus below `2^62` is kept in the word itself and clearing it has no effect: then
nothing is used after it was freed, for any number of threads. -/
theorem C46_small_partial (threads modulus : Nat) (terms : List Nat) (hm : modulus < 2 ^ 62) :
    modulusLife threads modulus terms = .ok .small := by
  rw [modulusLife, FmpzVar.init, if_pos hm, lifeLoop_small]
  rfl

example : (7 : Nat) ^ 10 < 2 ^ 62 := by norm_num

end Verif
