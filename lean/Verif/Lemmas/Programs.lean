import Verif.Lemmas.Text
import Verif.Lemmas.Construct
import Verif.Lemmas.FrobSum
import Verif.Lemmas.Pipeline
import Verif.Model.Programs
import Verif.Spec.Poly

/-! Lemmas about the programs of `examples/`. -/

namespace Verif

open Spec

/-! ### Text -/

theorem newline_showNat (n : ℕ) : '\n' ∉ showNat n := by
  induction n using Nat.strong_induction_on with
  | _ n ih =>
    have hd : ∀ k, k < 10 → '\n' ≠ digitChar k := by decide
    rw [showNat]
    split
    · next h => simpa using hd n h
    · next h =>
      rw [List.mem_append, not_or]
      exact ⟨ih _ (by omega), by simpa using hd _ (Nat.mod_lt _ (by norm_num))⟩

theorem newline_showInt (x : ℤ) : '\n' ∉ showInt x := by
  cases x with
  | ofNat n => exact newline_showNat n
  | negSucc n =>
    rw [showInt, List.mem_cons, not_or]
    exact ⟨by decide, newline_showNat _⟩

theorem newline_showItems {α : Type} {sh : α → Str} (h : ∀ x, '\n' ∉ sh x) : ∀ l : List α, '\n' ∉ showItems sh l
  | [] => by simp [showItems]
  | [x] => h x
  | x :: y :: l => by
    rw [showItems, List.mem_append, List.mem_cons, not_or, not_or]
    exact ⟨h x, by decide, newline_showItems h (y :: l)⟩

theorem newline_showVec {α : Type} {sh : α → Str} (h : ∀ x, '\n' ∉ sh x) (l : List α) : '\n' ∉ showVec sh l := by
  rw [showVec, List.mem_cons, List.mem_append, not_or, not_or]
  exact ⟨by decide, newline_showItems h l, by decide⟩

theorem count_line (a b : Str) : (a ++ '\n' :: b).count '\n' = a.count '\n' + b.count '\n' + 1 := by
  rw [List.count_append, List.count_cons_self]
  omega

theorem showVec_mod {p : ℕ} (l : List (ZMod p)) : showVec showMod l = showVec showInt (l.map (fun c => (c.val : ℤ))) := by
  have : ∀ l : List (ZMod p), showItems showMod l = showItems showInt (l.map (fun c => (c.val : ℤ))) := by
    intro l
    induction l with
    | nil => rfl
    | cons x l ih =>
      cases l with
      | nil => rfl
      | cons y l => rw [showItems, ih]; rfl
  rw [showVec, this]
  rfl

/-- An integer, a white space character, and the rest. -/
theorem readInt_ws_end (x : ℤ) (c : Char) (hc : isWs c = true) (rest : Str) :
    readInt (showInt x ++ c :: rest) = .ok (x, c :: rest) :=
  (rt_int x).read _ (noDigit_sep c rest (Or.inl hc))

theorem readVec_end (l : List ℤ) (rest : Str) : readVec readInt (showVec showInt l ++ rest) = .ok (l, rest) :=
  (rt_intVec l).read rest trivial

/-- A number is not a vector. -/
theorem readVec_number (x : ℤ) (rest : Str) : readVec readInt (showInt x ++ rest) = .error .abort := by
  have hd : ∀ k, k < 10 → isWs (digitChar k) = false ∧ digitChar k ≠ '[' := by decide
  have key : ∀ (c : Char) (s : Str), isWs c = false → c ≠ '[' → readVec readInt (c :: s) = .error .abort := by
    intro c s h1 h2
    rw [readVec, skipWs_of h1]
    split
    · next h => exact absurd (List.cons.inj h).1 h2
    · rfl
  cases x with
  | ofNat n =>
    obtain ⟨k, s, hk, e⟩ := showNat_head n
    rw [showInt, e, List.cons_append]
    exact key _ _ (hd k hk).1 (hd k hk).2
  | negSucc n => rw [showInt, List.cons_append]; exact key _ _ (by decide) (by decide)

theorem initModuli_ok {p precision : ℤ} (hp : 2 ≤ p) (hK : 1 ≤ precision) : initModuli p precision = .ok () := by
  have h2 : 2 ≤ p.toNat := by omega
  have h1 : (2 : ℤ) ≤ ((p.toNat : ℕ) : ℤ) ^ precision.toNat := by
    have := Nat.le_self_pow (show precision.toNat ≠ 0 by omega) p.toNat
    have h3 : 2 ≤ p.toNat ^ precision.toNat := by omega
    exact_mod_cast h3
  rw [initModuli, if_neg (by omega), powerZZ, if_neg (by omega), Res.bind_ok, if_neg (by omega)]

/-! ### The polynomial and its vector of coefficients -/

open MvPolynomial

theorem toPoly_filter {R : Type} [CommRing R] [DecidableEq R] (n : ℕ) (m : MonMap R) :
    toPoly n (m.filter (fun e => decide (e.2 ≠ 0))) = toPoly n m := by
  induction m with
  | nil => rfl
  | cons e m ih =>
    obtain ⟨k, c⟩ := e
    by_cases hc : c = 0
    · rw [List.filter_cons_of_neg (by simpa using hc), ih, toPoly_cons, hc, monomial_zero, zero_add]
    · rw [List.filter_cons_of_pos (by simpa using hc), toPoly_cons, toPoly_cons, ih]

/-- `f_original_map` is the polynomial with the coefficients read. -/
theorem originalMap_ok {p n d : ℕ} {L : List IVec} (hL : IsTable n d L) (v : List (ZMod p)) (hv : L.length = v.length) :
    WFPoly (n + 1) (originalMap L v) ∧ (∀ e ∈ originalMap L v, deg e.1 = d) ∧
    toPoly (n + 1) (originalMap L v) = toPoly (n + 1) (L.zip v) ∧
    (originalMap L v = [] ↔ toPoly (n + 1) (L.zip v) = 0) := by
  obtain ⟨h1, h2⟩ := table_wf hL v hv
  have hwf : WFPoly (n + 1) ((L.zip v).filter (fun e => decide (e.2 ≠ 0))) :=
    ⟨fun e he => h1.1 e (List.mem_filter.1 he).1, h1.2.sublist (List.filter_sublist.map _)⟩
  have he : originalMap L v = (L.zip v).filter (fun e => decide (e.2 ≠ 0)) := setAll_wfpoly _ hwf
  rw [he]
  refine ⟨hwf, fun e h => h2 e (List.mem_filter.1 h).1, toPoly_filter _ _, fun h => ?_, fun h => ?_⟩
  · rw [← toPoly_filter, h]; rfl
  · rw [List.filter_eq_nil_iff]
    intro e hemem hne
    obtain ⟨k1, k2⟩ := h1.1 e hemem
    have hc := coeff_toPoly h1 k1 k2
    rw [h, coeff_zero, MonMap.get, find?_of_mem_nodup (e := e) (LexLt_pairwise_nodup h1.2) hemem] at hc
    simp only [ne_eq, decide_eq_true_eq] at hne
    exact hne hc.symm

/-- One assignment: the vector of the values of a function on the monomials. -/
theorem aset_table {p : ℕ} {L : List IVec} (hL : L.Nodup) (h : IVec → ZMod p) {k : IVec} (hk : k ∈ L) (x : ZMod p) :
    aset (L.map h) ((MonMap.find? (buildDict L) k).getD 0) x = .ok (L.map (Function.update h k x)) := by
  obtain ⟨i, hi, rfl⟩ := List.mem_iff_getElem.1 hk
  rw [find?_buildDict_of_nodup L hL i hi, Option.getD_some, aset_of_lt _ _ _ (by rw [List.length_map]; exact hi)]
  congr 1
  refine List.ext_getElem (by simp) (fun j h1 h2 => ?_)
  rw [List.getElem_set, List.getElem_map (l := L) (f := Function.update h L[i] x)]
  have hj : j < L.length := by simpa using h2
  by_cases hij : i = j
  · subst hij
    rw [if_pos rfl, Function.update_self]
  · rw [if_neg hij, List.getElem_map, Function.update_of_ne]
    intro h; exact hij ((List.Nodup.getElem_inj_iff hL).1 h).symm

theorem vectorFold_ok {p : ℕ} {L : List IVec} (hL : L.Nodup) : ∀ (g : MonMap (ZMod p)) (h : IVec → ZMod p),
    (∀ e ∈ g, e.1 ∈ L) → (g.map Prod.fst).Nodup →
    g.foldlM (fun v e => aset v ((MonMap.find? (buildDict L) e.1).getD 0) e.2) (L.map h) =
      .ok (L.map (fun u => (MonMap.find? g u).getD (h u)))
  | [], h, _, _ => by simp [MonMap.find?]
  | (k, x) :: g, h, hmem, hnd => by
    rw [List.map_cons, List.nodup_cons] at hnd
    rw [List.foldlM_cons, aset_table hL h (hmem (k, x) (by simp)) x, Res.bind_ok,
      vectorFold_ok hL g _ (fun e he => hmem e (by simp [he])) hnd.2]
    congr 1
    refine List.map_congr_left (fun u _ => ?_)
    rw [MonMap.find?_cons]
    by_cases hu : u = k
    · subst hu
      have hn : MonMap.find? g u = none := by
        cases hf : MonMap.find? g u with
        | none => rfl
        | some y => exact absurd (List.mem_map_of_mem (f := Prod.fst) (mem_of_find? hf)) hnd.1
      rw [if_pos rfl, hn, Option.getD_none, Option.getD_some, Function.update_self]
    · rw [if_neg hu, Function.update_of_ne hu]

/-- `f_vector` holds the coefficients of the model. -/
theorem vectorOf_ok {p n d : ℕ} {L : List IVec} (hL : IsTable n d L) {g : MonMap (ZMod p)} (hg : WFPoly (n + 1) g)
    (hdeg : ∀ e ∈ g, deg e.1 = d) :
    vectorOf L.length (buildDict L) g = .ok (L.map (fun u => coeff (expo (n + 1) u) (toPoly (n + 1) g))) := by
  have h0 : List.replicate L.length (0 : ZMod p) = L.map (fun _ => 0) := by simp
  rw [vectorOf, h0, vectorFold_ok (LexLt_pairwise_nodup hL.1) g _ (fun e he =>
    (hL.2 e.1).2 ⟨(hg.1 e he).1, (hg.1 e he).2, hdeg e he⟩) (LexLt_pairwise_nodup hg.2)]
  congr 1
  refine List.map_congr_left (fun u hu => ?_)
  have := (hL.2 u).1 hu
  rw [coeff_toPoly hg this.1 this.2.1]
  rfl

end Verif
