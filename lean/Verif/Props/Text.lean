import Verif.Lemmas.Text
import Verif.Spec.Poly

/-!
The text format of polynomials: property C44.
-/

namespace Verif

open Spec

theorem find?_rev_of_nodup {V : Type} (m : MonMap V) (h : (m.map Prod.fst).Nodup) (k : IVec) :
    (match (m.reverse.find? (fun e => e.1 = k)) with
      | some e => some e.2
      | none => none) = MonMap.find? m k := by
  induction m with
  | nil => rfl
  | cons e m ih =>
    rw [List.map_cons, List.nodup_cons] at h
    have ih := ih h.2
    rw [List.reverse_cons, List.find?_append, MonMap.find?_cons]
    by_cases hk : k = e.1
    · rw [if_pos hk]
      have : m.reverse.find? (fun e => decide (e.1 = k)) = none := by
        rw [List.find?_eq_none]
        intro x hx hxk
        have hxk : x.1 = k := by simpa using hxk
        exact h.1 (hk ▸ hxk ▸ List.mem_map_of_mem (List.mem_reverse.1 hx))
      rw [this, hk]
      simp
    · rw [if_neg hk, ← ih]
      cases m.reverse.find? (fun e => decide (e.1 = k)) with
      | some x => rfl
      | none => simp [Ne.symm hk]

theorem setAll_sorted {V : Type} {n : Nat} (hn : 0 < n) (m : MonMap V) (hlen : ∀ e ∈ m, e.1.length = n)
    (hs : (m.map Prod.fst).Pairwise LexLt) : MonMap.setAll [] m = m := by
  apply MonMap.ext_of_sorted (MonMap.setAll_wf hn m hlen [] (MonMap.keyLen_nil n) MonMap.sorted_nil).2 hs
  intro k
  rw [MonMap.find?_setAll, ← find?_rev_of_nodup m (LexLt_pairwise_nodup hs) k]
  rfl

/-- The general form: whatever two vectors are written, reading them as a polynomial assigns the coefficients one
after the other. -/
theorem ltLoop_total : ∀ (a b : IVec), a.length = b.length → 0 < a.length → ∃ r, ltLoop a b = .ok r
  | [a], [b], _, _ => ⟨_, rfl⟩
  | a :: a' :: as, b :: b' :: bs, h, _ => by
    rw [ltLoop]
    split
    · exact ⟨_, rfl⟩
    · split
      · exact ⟨_, rfl⟩
      · exact ltLoop_total (a' :: as) (b' :: bs) (by simpa using h) (by simp)
    · simp
  | [], _, _, h0 => by simp at h0
  | [_], [], h, _ => by simp at h
  | [_], _ :: _ :: _, h, _ => by simp at h
  | _ :: _ :: _, [], h, _ => by simp at h
  | _ :: _ :: _, [_], h, _ => by simp at h

theorem checkKeys_ok {n : Nat} (hn : 0 < n) (ks : List IVec) (h : ∀ k ∈ ks, k.length = n) : checkKeys ks = .ok () := by
  cases ks with
  | nil => rfl
  | cons k ks =>
    rw [checkKeys]
    have hk : k.length = n := h k (by simp)
    have h' : ∀ k' ∈ ks, k'.length = n := fun k' hk' => h k' (by simp [hk'])
    clear h
    induction ks with
    | nil => rfl
    | cons k' ks ih =>
      have e := h' k' (by simp)
      obtain ⟨r, hr⟩ := ltLoop_total k' k (by rw [e, hk]) (by omega)
      rw [List.foldlM_cons, ltVec, if_neg (by rw [e, hk]; simp), hr]
      exact ih (fun k' hk' => h' k' (by simp [hk']))

theorem checkKeys_abort {n : Nat} (hn : 0 < n) (k : IVec) (ks : List IVec) (hk : k.length = n) (h : ∃ k' ∈ ks, k'.length ≠ n) :
    checkKeys (k :: ks) = .error .abort := by
  rw [checkKeys]
  induction ks with
  | nil => obtain ⟨k', h1, -⟩ := h; cases h1
  | cons k' ks ih =>
    rw [List.foldlM_cons, ltVec]
    by_cases e : k'.length = n
    · obtain ⟨r, hr⟩ := ltLoop_total k' k (by rw [e, hk]) (by omega)
      rw [if_neg (by rw [e, hk]; simp), hr]
      refine ih ?_
      obtain ⟨k'', h1, h2⟩ := h
      rcases List.mem_cons.1 h1 with rfl | h1
      · exact absurd e h2
      · exact ⟨k'', h1, h2⟩
    · rw [if_pos (by rw [hk]; exact e)]
      rfl

theorem readPoly_ok {R : Type} {sh : R → Str} {rd : Str → Res (R × Str)} (hrt : ∀ l : List R, RoundTrip (showVec sh) (readVec rd) (fun _ => True) l)
    (ms : List IVec) (cs : List R) (c : Char) (hc : isWs c = true) (rest : Str) :
    readPoly rd (showMat showInt ms ++ c :: (showVec sh cs ++ rest)) =
      if ms.length = cs.length then
        checkKeys ms >>= fun _ => .ok (MonMap.setAll [] (ms.zip cs), rest)
      else .error .assertFail := by
  rw [readPoly, rt_mat noDigit_sep showInt_ne ms (fun _ _ x _ => rt_int x), Res.bind_ok]
  simp only
  rw [(hrt cs).ws c _ hc, (hrt cs).read rest trivial, Res.bind_ok]
  split
  · next h => rw [decide_eq_true h, check_true, Res.bind_ok]
  · next h => rw [decide_eq_false h, check_false]; rfl

/-- **C44 (round trip).**  For every non-empty polynomial map in `n >= 1` variables with integer coefficients:
writing it and reading it back gives the same map, and the reader stops after the coefficients whatever
follows.  (`showPoly` and `readPoly` work on characters.) -/
theorem C44_round_trip_ZZ {n : Nat} (hn : 0 < n) (m : MonMap Int) (hne : m ≠ []) (hlen : ∀ e ∈ m, e.1.length = n)
    (hs : (m.map Prod.fst).Pairwise LexLt) :
    ∃ s, showPoly showInt m = .ok s ∧ ∀ rest, readPoly readInt (s ++ rest) = .ok (m, '\n' :: rest) := by
  cases m with
  | nil => exact absurd rfl hne
  | cons e m =>
    obtain ⟨k, v⟩ := e
    have hall : ((k, v) :: m).all (fun e => e.1.length = k.length) = true := by
      rw [List.all_eq_true]
      intro e he
      rw [decide_eq_true_eq, hlen e he, hlen (k, v) (by simp)]
    refine ⟨_, by rw [showPoly, if_pos hall], fun rest => ?_⟩
    rw [List.append_assoc, List.cons_append, List.append_assoc, readPoly_ok rt_intVec _ _ _ (by decide), if_pos (by simp),
      checkKeys_ok hn _ (by
        intro k' hk'
        obtain ⟨e, he, rfl⟩ := List.mem_map.1 hk'
        exact hlen e he), Res.bind_ok]
    have hz : ((((k, v) :: m).map Prod.fst).zip (((k, v) :: m).map Prod.snd)) = (k, v) :: m := by
      rw [List.zip_map', List.map_id'']
      intro x; rfl
    rw [hz, setAll_sorted hn _ hlen hs]
    rfl

/-- **C44 (round trip, modular coefficients).**  The same for coefficients in `ZZ_p` or `zz_p`, read under the same
modulus. -/
theorem C44_round_trip_mod {q : Nat} [NeZero q] {n : Nat} (hn : 0 < n) (m : MonMap (ZMod q)) (hne : m ≠ [])
    (hlen : ∀ e ∈ m, e.1.length = n) (hs : (m.map Prod.fst).Pairwise LexLt) :
    ∃ s, showPoly showMod m = .ok s ∧ ∀ rest, readPoly (readMod q) (s ++ rest) = .ok (m, '\n' :: rest) := by
  cases m with
  | nil => exact absurd rfl hne
  | cons e m =>
    obtain ⟨k, v⟩ := e
    have hall : ((k, v) :: m).all (fun e => e.1.length = k.length) = true := by
      rw [List.all_eq_true]
      intro e he
      rw [decide_eq_true_eq, hlen e he, hlen (k, v) (by simp)]
    refine ⟨_, by rw [showPoly, if_pos hall], fun rest => ?_⟩
    rw [List.append_assoc, List.cons_append, List.append_assoc, readPoly_ok rt_modVec _ _ _ (by decide), if_pos (by simp),
      checkKeys_ok hn _ (by
        intro k' hk'
        obtain ⟨e, he, rfl⟩ := List.mem_map.1 hk'
        exact hlen e he), Res.bind_ok]
    have hz : ((((k, v) :: m).map Prod.fst).zip (((k, v) :: m).map Prod.snd)) = (k, v) :: m := by
      rw [List.zip_map', List.map_id'']
      intro x; rfl
    rw [hz, setAll_sorted hn _ hlen hs]
    rfl

/-- Negative coefficients and exponents of several digits. -/
example : showPoly showInt [([0, 12], -35), ([12, 0], 7)] = .ok "[[0 12]\n[12 0]\n]\n[-35 7]\n".toList ∧
    readPoly readInt "[[0 12]\n[12 0]\n]\n[-35 7]\n".toList = .ok ([([0, 12], -35), ([12, 0], 7)], ['\n']) := by
  constructor <;> decide +kernel

/-- **C44 (duplicates).**  For every list of monomials in `n >= 1` variables and list of coefficients of the same length,
in the format of the writer and separated by any white space character, reading gives a map in which a listed
monomial has the coefficient listed last for it, and no other monomial occurs.  Lists of different lengths stop at the
assertion. -/
theorem C44_last_wins {n : Nat} (hn : 0 < n) (ms : List IVec) (hms : ∀ k ∈ ms, k.length = n) (cs : List Int) (c : Char)
    (hc : isWs c = true) (rest : Str) :
    (ms.length = cs.length → ∃ m, readPoly readInt (showMat showInt ms ++ c :: (showVec showInt cs ++ rest)) = .ok (m, rest) ∧
      (∀ i (h : i < ms.length), (∀ j (h' : j < ms.length), i < j → ms[j] ≠ ms[i]) → MonMap.find? m ms[i] = cs[i]?) ∧
      (∀ k, k ∉ ms → MonMap.find? m k = none)) ∧
    (ms.length ≠ cs.length →
      readPoly readInt (showMat showInt ms ++ c :: (showVec showInt cs ++ rest)) = .error .assertFail) := by
  rw [readPoly_ok rt_intVec ms cs c hc]
  constructor
  · intro hlen
    rw [if_pos hlen, checkKeys_ok hn ms hms, Res.bind_ok]
    refine ⟨_, rfl, fun i h hlast => ?_, fun k hk => ?_⟩
    · have hzl : (ms.zip cs).length = ms.length := by rw [List.length_zip]; omega
      have hi : i < (ms.zip cs).length := by omega
      have hsplit : ms.zip cs = (ms.zip cs).take i ++ (ms[i], cs[i]'(by omega)) :: (ms.zip cs).drop (i + 1) := by
        have e : (ms[i], cs[i]'(by omega)) = (ms.zip cs)[i] := by rw [List.getElem_zip]
        rw [e, List.getElem_cons_drop, List.take_append_drop]
      rw [MonMap.find?_setAll, hsplit, List.reverse_append, List.reverse_cons, List.find?_append, List.find?_append]
      have hnone : ((ms.zip cs).drop (i + 1)).reverse.find? (fun e => decide (e.1 = ms[i])) = none := by
        rw [List.find?_eq_none]
        intro x hx hxk
        have hxk : x.1 = ms[i] := by simpa using hxk
        obtain ⟨j, hj, e⟩ := List.getElem_of_mem (List.mem_reverse.1 hx)
        rw [List.length_drop] at hj
        rw [List.getElem_drop, List.getElem_zip] at e
        refine hlast (i + 1 + j) (by omega) (by omega) ?_
        rw [← hxk, ← e]
      rw [hnone]
      simp only [Option.none_or, List.find?_singleton, decide_true, if_true, Option.some_or]
      rw [List.getElem?_eq_getElem (by omega)]
    · rw [MonMap.find?_setAll]
      have : (ms.zip cs).reverse.find? (fun e => decide (e.1 = k)) = none := by
        rw [List.find?_eq_none]
        intro x hx hxk
        have hxk : x.1 = k := by simpa using hxk
        apply hk
        rw [← hxk]
        exact (List.of_mem_zip (List.mem_reverse.1 hx)).1
      rw [this]
      rfl
  · intro hlen
    rw [if_neg hlen]

example : readPoly readInt "[[1 2] [3 0] [1 2]]\n[5 6 7]".toList = .ok ([([1, 2], 7), ([3, 0], 6)], []) := by
  decide +kernel

/-- **C44 (mixed lengths).**  Monomials of different lengths stop in the comparison of keys. -/
theorem C44_mixed_lengths {n : Nat} (hn : 0 < n) (k : IVec) (ms : List IVec) (hk : k.length = n)
    (h : ∃ k' ∈ ms, k'.length ≠ n) (cs : List Int) (hlen : ms.length + 1 = cs.length) (c : Char) (hc : isWs c = true)
    (rest : Str) :
    readPoly readInt (showMat showInt (k :: ms) ++ c :: (showVec showInt cs ++ rest)) = .error .abort := by
  rw [readPoly_ok rt_intVec _ cs c hc, if_pos (by simpa using hlen), checkKeys_abort hn k ms hk h]
  rfl

example : readPoly readInt "[[1 2] [3]]\n[5 6]".toList = .error .abort := by decide +kernel

/-- **C44 (the empty map).**  Writing the empty map reads the first key of an empty map: undefined behaviour. -/
theorem C44_empty_ub {R : Type} (sh : R → Str) : showPoly sh ([] : MonMap R) = .error .ub := rfl

end Verif
