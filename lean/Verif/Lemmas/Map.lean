import Verif.Model.Map
import Verif.Lemmas.Vec
import Mathlib.Data.List.Nodup
import Mathlib.Data.List.Basic

namespace Verif

open Spec

theorem keyLt_iff {a b : IVec} (hlen : a.length = b.length) (hne : a ≠ []) :
    keyLt a b = true ↔ LexLt a b := by
  have h1 := ltLoop_eq_true_iff a b hlen
  obtain ⟨r, hr⟩ := ltLoop_isOk a b hlen hne
  unfold keyLt ltVec
  rw [if_neg (by simpa using hlen), hr]
  rw [hr] at h1
  simpa using h1

namespace MonMap

variable {V : Type}

@[simp] theorem find?_nil (k : IVec) : find? ([] : MonMap V) k = none := rfl

theorem find?_cons (k' : IVec) (v' : V) (m : MonMap V) (k : IVec) :
    find? ((k', v') :: m) k = if k = k' then some v' else find? m k := rfl

/-- Reading after writing. -/
theorem find?_set (m : MonMap V) (k k' : IVec) (v : V) :
    find? (set m k v) k' = if k' = k then some v else find? m k' := by
  induction m with
  | nil => simp [set, find?]
  | cons e m ih =>
    obtain ⟨k1, v1⟩ := e
    rw [set]
    split
    · next h => subst h; simp only [find?_cons]; split <;> rfl
    · next h =>
      split
      · simp only [find?_cons]
      · simp only [find?_cons, ih]
        by_cases h1 : k' = k1
        · subst h1; simp [Ne.symm h]
        · simp [h1]

theorem get_set [Zero V] (m : MonMap V) (k k' : IVec) (v : V) :
    get (set m k v) k' = if k' = k then v else get m k' := by
  unfold get; rw [find?_set]; split <;> simp

theorem get_addTo [Zero V] [Add V] (m : MonMap V) (k k' : IVec) (c : V) :
    get (addTo m k c) k' = if k' = k then get m k + c else get m k' := by
  unfold addTo; rw [get_set]

theorem get_nil [Zero V] (k : IVec) : get ([] : MonMap V) k = 0 := rfl

theorem mem_keys_set (m : MonMap V) (k : IVec) (v : V) (x : IVec) :
    x ∈ keys (set m k v) ↔ x = k ∨ x ∈ keys m := by
  induction m with
  | nil => simp [set, keys]
  | cons e m ih =>
    obtain ⟨k1, v1⟩ := e
    simp only [keys] at ih ⊢
    rw [set]
    split
    · next h => subst h; simp
    · split
      · simp
      · simp only [List.map_cons, List.mem_cons, ih]
        tauto

theorem mem_keys_iff (m : MonMap V) (k : IVec) : k ∈ keys m ↔ ∃ v, find? m k = some v := by
  induction m with
  | nil => simp [keys]
  | cons e m ih =>
    obtain ⟨k1, v1⟩ := e
    simp only [keys, List.map_cons, List.mem_cons, find?_cons] at ih ⊢
    by_cases h : k = k1
    · simp [h]
    · simp [h, ih]

/-- The keys are strictly increasing: the invariant of `std::map`. -/
def Sorted (m : MonMap V) : Prop := (keys m).Pairwise LexLt

/-- All keys have length `n`. -/
def KeyLen (n : Nat) (m : MonMap V) : Prop := ∀ k ∈ keys m, k.length = n

theorem sorted_nil : Sorted ([] : MonMap V) := by simp [Sorted, keys]

theorem keyLen_nil (n : Nat) : KeyLen n ([] : MonMap V) := by simp [KeyLen, keys]

theorem keyLen_set {n : Nat} {m : MonMap V} (h : KeyLen n m) {k : IVec} (hk : k.length = n) (v : V) :
    KeyLen n (set m k v) := by
  intro x hx
  rw [mem_keys_set] at hx
  rcases hx with rfl | hx
  · exact hk
  · exact h x hx

theorem sorted_set {n : Nat} (hn : 0 < n) {m : MonMap V} (h : KeyLen n m) (hs : Sorted m)
    {k : IVec} (hk : k.length = n) (v : V) : Sorted (set m k v) := by
  induction m with
  | nil => simp [set, Sorted, keys]
  | cons e m ih =>
    obtain ⟨k1, v1⟩ := e
    have hk1 : k1.length = n := h k1 (by simp [keys])
    have hkl : KeyLen n m := fun x hx => h x (by simp only [keys, List.map_cons, List.mem_cons]; right; exact hx)
    have hne : k ≠ [] := by rintro rfl; simp at hk; omega
    have hs' := hs
    simp only [Sorted, keys, List.map_cons, List.pairwise_cons] at hs'
    rw [set]
    split
    · next he => subst he; exact hs
    · next he =>
      split
      · next hlt =>
        rw [keyLt_iff (by omega) hne] at hlt
        simp only [Sorted, keys, List.map_cons, List.pairwise_cons, List.mem_cons]
        refine ⟨?_, hs'⟩
        rintro x (rfl | hx)
        · exact hlt
        · exact hlt.trans (hs'.1 x hx)
      · next hlt =>
        rw [keyLt_iff (by omega) hne] at hlt
        have hgt : LexLt k1 k := by
          rcases LexLt.trichotomy k k1 (by omega) with h | h | h
          · exact absurd h hlt
          · exact absurd h he
          · exact h
        simp only [Sorted, keys, List.map_cons, List.pairwise_cons]
        refine ⟨?_, ih hkl hs'.2⟩
        intro x hx
        have := (mem_keys_set m k v x).1 hx
        rcases this with rfl | hx
        · exact hgt
        · exact hs'.1 x hx

theorem setAll_nil (m : MonMap V) : setAll m [] = m := rfl
theorem setAll_cons (m : MonMap V) (e : IVec × V) (l : List (IVec × V)) :
    setAll m (e :: l) = setAll (set m e.1 e.2) l := rfl

theorem setAll_wf {n : Nat} (hn : 0 < n) (l : List (IVec × V)) (hl : ∀ e ∈ l, e.1.length = n)
    (m : MonMap V) (hk : KeyLen n m) (hs : Sorted m) :
    KeyLen n (setAll m l) ∧ Sorted (setAll m l) := by
  induction l generalizing m with
  | nil => exact ⟨hk, hs⟩
  | cons e l ih =>
    rw [setAll_cons]
    exact ih (fun x hx => hl x (List.mem_cons_of_mem _ hx)) _
      (keyLen_set hk (hl e (by simp)) _) (sorted_set hn hk hs (hl e (by simp)) _)

/-- After assigning a list of entries, a key holds the last value assigned to it. -/
theorem find?_setAll (l : List (IVec × V)) (m : MonMap V) (k : IVec) :
    find? (setAll m l) k =
      match (l.reverse.find? (fun e => e.1 = k)) with
      | some e => some e.2
      | none => find? m k := by
  induction l generalizing m with
  | nil => simp [setAll_nil]
  | cons e l ih =>
    rw [setAll_cons, ih, List.reverse_cons, List.find?_append]
    cases h : l.reverse.find? (fun e => decide (e.1 = k)) with
    | some x => simp
    | none =>
      rw [find?_set]
      by_cases hk : k = e.1
      · subst hk; simp
      · simp [hk, Ne.symm hk]

/-- Two maps with the invariant that hold the same values are the same. -/
theorem ext_of_sorted {m m' : MonMap V} (hs : Sorted m) (hs' : Sorted m')
    (h : ∀ k, find? m k = find? m' k) : m = m' := by
  induction m generalizing m' with
  | nil =>
    cases m' with
    | nil => rfl
    | cons e m' =>
      have := h e.1
      simp [find?] at this
  | cons e m ih =>
    obtain ⟨k, v⟩ := e
    cases m' with
    | nil => have := h k; simp [find?] at this
    | cons e' m' =>
      obtain ⟨k', v'⟩ := e'
      have hs1 := hs; have hs1' := hs'
      simp only [Sorted, keys, List.map_cons, List.pairwise_cons] at hs1 hs1'
      have hkk : k = k' := by
        have h1 : k ∈ keys ((k', v') :: m') := by
          rw [mem_keys_iff]; exact ⟨v, by rw [← h]; simp [find?]⟩
        have h2 : k' ∈ keys ((k, v) :: m) := by
          rw [mem_keys_iff]; exact ⟨v', by rw [h]; simp [find?]⟩
        simp only [keys, List.map_cons, List.mem_cons] at h1 h2
        rcases h1 with h1 | h1
        · exact h1
        · rcases h2 with h2 | h2
          · exact h2.symm
          · exact absurd ((hs1.1 _ h2).trans (hs1'.1 _ h1)) (LexLt.irrefl _)
      subst hkk
      have hv : v = v' := by have := h k; simpa [find?] using this
      subst hv
      congr 1
      apply ih hs1.2 hs1'.2
      intro x
      by_cases hx : x = k
      · subst hx
        have n1 : find? m x = none := by
          cases hf : find? m x with
          | none => rfl
          | some y =>
            have : x ∈ keys m := (mem_keys_iff m x).2 ⟨y, hf⟩
            exact absurd (hs1.1 x this) (LexLt.irrefl _)
        have n2 : find? m' x = none := by
          cases hf : find? m' x with
          | none => rfl
          | some y =>
            have : x ∈ keys m' := (mem_keys_iff m' x).2 ⟨y, hf⟩
            exact absurd (hs1'.1 x this) (LexLt.irrefl _)
        rw [n1, n2]
      · have := h x
        simpa [find?, hx] using this

end MonMap

theorem LexLt_pairwise_nodup {l : List IVec} (h : l.Pairwise LexLt) : l.Nodup :=
  h.imp (fun {a b} hab (e : a = b) => LexLt.irrefl a (by subst e; exact hab))

theorem find?_buildDict_of_nodup (l : List IVec) (hl : l.Nodup) (i : Nat) (hi : i < l.length) :
    MonMap.find? (buildDict l) l[i] = some i := by
  unfold buildDict
  rw [MonMap.find?_setAll]
  have : ∀ x ∈ l.zipIdx, x.1 = l[i] → x = (l[i], i) := by
    intro x hx hxe
    rw [List.mem_zipIdx_iff_getElem?] at hx
    obtain ⟨a, j⟩ := x
    simp only at hx hxe
    rw [List.getElem?_eq_some_iff] at hx
    obtain ⟨hj, hx⟩ := hx
    have : j = i := (List.Nodup.getElem_inj_iff hl).1 (hx.trans hxe)
    subst this; rw [hxe]
  have hmem : (l[i], i) ∈ l.zipIdx := by
    rw [List.mem_zipIdx_iff_getElem?]; simp [hi]
  cases hf : (l.zipIdx.reverse.find? (fun e => decide (e.1 = l[i]))) with
  | none =>
    rw [List.find?_eq_none] at hf
    have := hf (l[i], i) (by simpa using hmem)
    simp at this
  | some x =>
    have h1 := List.mem_of_find?_eq_some hf
    have h2 := List.find?_some hf
    simp only [decide_eq_true_eq] at h2
    rw [this x (by simpa using h1) h2]

theorem find?_buildDict_none (l : List IVec) (k : IVec) (hk : k ∉ l) :
    MonMap.find? (buildDict l) k = none := by
  unfold buildDict
  rw [MonMap.find?_setAll]
  cases hf : (l.zipIdx.reverse.find? (fun e => decide (e.1 = k))) with
  | none => simp
  | some x =>
    have h1 := List.mem_of_find?_eq_some hf
    have h2 := List.find?_some hf
    simp only [decide_eq_true_eq] at h2
    have h1' : x ∈ l.zipIdx := by simpa using h1
    rw [List.mem_zipIdx_iff_getElem?] at h1'
    exact absurd (h2 ▸ List.mem_of_getElem? h1') hk

end Verif
