import Verif.Lemmas.FrobNDTerm

/-!
The matrices of `get_ND_poly_flint(u, v)` depend on `u` modulo the modulus only.
-/

namespace Verif

open Spec

section

variable {q : Nat}

/-- Same size, and congruent entries. -/
def MatCongr (q : Nat) (A B : CMat Int) : Prop := A.rows = B.rows ∧ A.cols = B.cols ∧ ∀ r c, A.e r c ≡ B.e r c [ZMOD q]

theorem addTop_congr {row0 : Bool} {P P' M : CMat Int} (h : MatCongr q P P') {c c' : Int} (hc : c ≡ c' [ZMOD q]) :
    (∃ Q Q', addTop row0 P c M = .ok Q ∧ addTop row0 P' c' M = .ok Q' ∧ MatCongr q Q Q') ∨
      ∃ e, addTop row0 P c M = .error e ∧ addTop row0 P' c' M = .error e := by
  obtain ⟨h1, h2, h3⟩ := h
  cases row0
  · rw [addTop, addTop, if_neg (by simp), if_neg (by simp), addScaled, addScaled, ← h1, ← h2]
    split
    · refine Or.inl ⟨_, _, rfl, rfl, rfl, rfl, fun r j => ?_⟩
      show (if _ then _ else _) ≡ (if _ then _ else _) [ZMOD q]
      split
      · exact (h3 r j).add (hc.mul_right _)
      · exact Int.ModEq.refl _
    · exact Or.inr ⟨_, rfl, rfl⟩
  · rw [addTop, addTop, if_pos rfl, if_pos rfl, addRow0, addRow0, ← h1, ← h2]
    split
    · exact Or.inr ⟨_, rfl, rfl⟩
    · split
      · refine Or.inl ⟨_, _, rfl, rfl, rfl, rfl, fun r j => ?_⟩
        show (if _ then _ else _) ≡ (if _ then _ else _) [ZMOD q]
        split
        · split
          · exact (h3 0 j).add (hc.mul_right _)
          · exact h3 r j
        · exact Int.ModEq.refl _
      · exact Or.inr ⟨_, rfl, rfl⟩

theorem ndMon_congr {n : Nat} {u u' : IVec} (h : ∀ i, i ≤ n → u.getD i 0 ≡ u'.getD i 0 [ZMOD q]) (key : IVec) :
    ndMon n u key ≡ ndMon n u' key [ZMOD q] := by
  rw [ndMon, ndMon]
  have : ∀ (l : List Nat), (∀ i ∈ l, i ≤ n) → ∀ a a' : Int, a ≡ a' [ZMOD q] →
      l.foldl (fun a (i : Nat) => a * u.getD i 0 ^ (key.getD i 0).toNat) a ≡
        l.foldl (fun a (i : Nat) => a * u'.getD i 0 ^ (key.getD i 0).toNat) a' [ZMOD q] := by
    intro l
    induction l with
    | nil => exact fun _ a a' ha => ha
    | cons i l ih =>
      intro hl a a' ha
      rw [List.foldl_cons, List.foldl_cons]
      exact ih (fun j hj => hl j (by simp [hj])) _ _ (ha.mul ((h i (hl i (by simp))).pow _))
  exact this _ (fun i hi => by have := List.mem_range.1 hi; omega) 1 1 (Int.ModEq.refl _)

theorem ndPolys_congr {n : Nat} {u u' : IVec} (h : ∀ i, i ≤ n → u.getD i 0 ≡ u'.getD i 0 [ZMOD q]) :
    ∀ (E : MonMap (CMat Int)) {P P' : Nat → CMat Int}, (∀ i, MatCongr q (P i) (P' i)) →
      (∃ Q Q', E.foldlM (ndPolyAdd n u) P = .ok Q ∧ E.foldlM (ndPolyAdd n u') P' = .ok Q' ∧ ∀ i, MatCongr q (Q i) (Q' i)) ∨
        ∃ e, E.foldlM (ndPolyAdd n u) P = .error e ∧ E.foldlM (ndPolyAdd n u') P' = .error e := by
  intro E
  induction E with
  | nil => exact fun hP => Or.inl ⟨_, _, rfl, rfl, hP⟩
  | cons e E ih =>
    intro P P' hP
    rw [List.foldlM_cons, List.foldlM_cons, ndPolyAdd, ndPolyAdd]
    by_cases hx : e.1.getD (n + 1) 0 < 0 ∨ (n : Int) + 1 < e.1.getD (n + 1) 0
    · rw [if_pos hx, if_pos hx]
      exact Or.inr ⟨_, rfl, rfl⟩
    · rw [if_neg hx, if_neg hx]
      have hc : ((ndMon n u e.1 : Int) : Int) ≡ ((ndMon n u' e.1 : Int) : Int) [ZMOD q] := ndMon_congr h e.1
      rcases addTop_congr (row0 := decide (headSum (n + 2) e.1 = n + 1)) (M := e.2) (hP (e.1.getD (n + 1) 0).toNat) hc with
        ⟨Q, Q', q1, q2, q3⟩ | ⟨err, q1, q2⟩
      · simp only [Int.cast_id] at q1 q2 ⊢
        rw [q1, q2, Res.bind_ok, Res.bind_ok, Res.bind_ok, Res.bind_ok]
        refine ih (fun i => ?_)
        split
        · exact q3
        · exact hP i
      · simp only [Int.cast_id] at q1 q2 ⊢
        rw [q1, q2]
        exact Or.inr ⟨_, rfl, rfl⟩

theorem matCongr_map {A B : CMat Int} (h : MatCongr q A B) : A.map (· % (q : Int)) = B.map (· % (q : Int)) := by
  obtain ⟨h1, h2, h3⟩ := h
  rw [CMat.map, CMat.map, ← h1, ← h2]
  exact CMat.mk'_congr (fun r c _ _ => h3 r c)

/-- `get_ND_poly_flint(u, v)` for two `u` congruent modulo `q`. -/
theorem getNDPolyZ_congr {solve : Solver (ZMod q)} {N : ND (ZMod q)} {u u' v : IVec} (hl : u.length = u'.length)
    (hd : (N.d : Int) ∣ u.sum) (hd' : (N.d : Int) ∣ u'.sum) (h : ∀ i, i ≤ N.n → u.getD i 0 ≡ u'.getD i 0 [ZMOD q]) :
    getNDPolyZ solve N u v = getNDPolyZ solve N u' v := by
  have hc : checkND N u v = checkND N u' v := by
    rw [checkND, checkND, sumVec_eq_sum, sumVec_eq_sum, sumVec_eq_sum, decide_eq_true (Int.emod_eq_zero_of_dvd hd),
      decide_eq_true (Int.emod_eq_zero_of_dvd hd')]
  rw [getNDPolyZ, getNDPolyZ, hl, hc]
  congr 1
  funext _
  congr 1
  funext _
  congr 1
  funext _
  congr 1
  funext E
  rw [ndPolys, ndPolys]
  rcases ndPolys_congr h E (P := fun _ => CMat.mk' N.ndBasis.length N.ndBasis.length (fun _ _ => 0))
    (fun _ => ⟨rfl, rfl, fun _ _ => Int.ModEq.refl _⟩) with ⟨Q, Q', q1, q2, q3⟩ | ⟨e, q1, q2⟩
  · rw [q1, q2, Res.bind_ok, Res.bind_ok]
    congr 1
    funext i
    exact matCongr_map (q3 i)
  · rw [q1, q2]

end

end Verif
