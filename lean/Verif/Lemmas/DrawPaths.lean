import Verif.Model.DrawPaths
import Verif.Spec.Paths
import Verif.Spec.ND
import Verif.Lemmas.Vec
import Verif.Lemmas.DeRhamMono
import Mathlib.Tactic.Ring

/-!
Lemmas about the random choices of `test_paths_J` and `test_paths_ND`.
-/

namespace Verif

open Verif.Spec

/-! ### Lists of integers -/

theorem aget_lt {α : Type} {l : List α} {k : ℕ} (h : k < l.length) (x : α) : aget l k = .ok (l.getD k x) := by
  rw [aget, List.getElem?_eq_getElem h, List.getD_eq_getElem?_getD, List.getElem?_eq_getElem h]; rfl

theorem getD_set_eq {l : List ℤ} {k : ℕ} (x : ℤ) (h : k < l.length) (i : ℕ) :
    (l.set k x).getD i 0 = if i = k then x else l.getD i 0 := by
  rw [List.getD_eq_getElem?_getD, List.getElem?_set, List.getD_eq_getElem?_getD]
  by_cases hik : i = k
  · subst hik; simp [h]
  · rw [if_neg (fun h => hik h.symm), if_neg hik]

theorem sum_set_succ : ∀ {l : List ℤ} {k : ℕ}, k < l.length → (l.set k (l.getD k 0 + 1)).sum = l.sum + 1
  | [], k, h => by simp at h
  | a :: l, 0, _ => by simp; ring
  | a :: l, k + 1, h => by
      have := sum_set_succ (l := l) (k := k) (by simpa using h)
      simp only [List.set_cons_succ, List.sum_cons, List.getD_cons_succ]
      rw [this]; ring

/-! ### The starting point -/

section

variable {rnd : ℕ → ℕ} {n d r : ℕ}

/-- The loop which makes the degree right ends within `d` passes. -/
theorem bumpLoop_ok (hr : r < d) (base : ℤ) : ∀ (t pos : ℕ) (u : IVec) (sum : ℤ), u.length = n + 1 → sum = u.sum →
    (∀ x ∈ u, base ≤ x) →
    (bumpLoop rnd n d r t pos u sum = .ok none ∧ ((t : ℤ) ≤ (r - sum) % d)) ∨
    ∃ u' pos', bumpLoop rnd n d r t pos u sum = .ok (some (u', pos')) ∧ u'.length = n + 1 ∧ u'.sum % d = r ∧
      ∀ x ∈ u', base ≤ x
  | 0, pos, u, sum, _, _, _ => Or.inl ⟨rfl, by have := Int.emod_nonneg (r - sum) (b := d) (by omega); simpa using this⟩
  | t + 1, pos, u, sum, hl, hs, hb => by
      unfold bumpLoop
      by_cases h : sum % d ≠ r
      · have hk : rnd pos % (n + 1) < u.length := by rw [hl]; exact Nat.mod_lt _ (by omega)
        simp only
        rw [if_pos h, aget_lt hk 0, Res.bind_ok, aset, if_pos hk, Res.bind_ok]
        have hb' : ∀ x ∈ u.set (rnd pos % (n + 1)) (u.getD (rnd pos % (n + 1)) 0 + 1), base ≤ x := by
          intro x hx
          rcases List.mem_or_eq_of_mem_set hx with h1 | h1
          · exact hb x h1
          · have : u.getD (rnd pos % (n + 1)) 0 ∈ u := by
              rw [List.getD_eq_getElem?_getD, List.getElem?_eq_getElem hk]; exact List.getElem_mem hk
            have := hb _ this
            omega
        rcases bumpLoop_ok hr base t (pos + 1) _ (sum + 1) (by rw [List.length_set]; exact hl)
          (by rw [sum_set_succ hk, hs]) hb' with ⟨h1, h2⟩ | h1
        · refine Or.inl ⟨h1, ?_⟩
          have hne : (r - sum) % (d : ℤ) ≠ 0 := by
            intro h0
            apply h
            obtain ⟨c, hc⟩ := Int.dvd_of_emod_eq_zero h0
            have : sum = r + d * (-c) := by linarith
            rw [this, Int.add_mul_emod_self_left, Int.emod_eq_of_lt (by omega) (by omega)]
          have h3 := Int.emod_nonneg (r - sum) (b := d) (by omega)
          have h4 := Int.emod_lt_of_pos (r - sum) (b := d) (by omega)
          have h5 : (r - (sum + 1)) % (d : ℤ) = (r - sum) % d - 1 := by
            have e : (r - (sum + 1) : ℤ) = ((r - sum) % d - 1) + d * ((r - sum) / d) := by
              have := Int.emod_add_mul_ediv (r - sum : ℤ) d
              linarith
            rw [e, Int.add_mul_emod_self_left, Int.emod_eq_of_lt (by omega) (by omega)]
          push_cast
          omega
        · exact Or.inr h1
      · rw [if_neg h]
        push Not at h
        exact Or.inr ⟨u, pos, rfl, hl, by rw [← hs]; exact h, hb⟩

theorem drawStart_ok (hr : r < d) (base : ℤ) (t pos : ℕ) :
    (drawStart rnd n d r base t pos = .ok none ∧ t < d) ∨
    ∃ u' pos', drawStart rnd n d r base t pos = .ok (some (u', pos')) ∧ u'.length = n + 1 ∧ u'.sum % d = r ∧
      ∀ x ∈ u', base ≤ x := by
  unfold drawStart
  rcases bumpLoop_ok (rnd := rnd) (n := n) hr base t (pos + (n + 1))
    ((List.range (n + 1)).map (fun i => base + ((rnd (pos + i) % 20 : ℕ) : ℤ))) _ (by simp) (sumVec_eq_sum _) (by
      intro x hx
      obtain ⟨i, -, rfl⟩ := List.mem_map.1 hx
      omega) with ⟨h, h'⟩ | h
  · refine Or.inl ⟨h, ?_⟩
    have := Int.emod_lt_of_pos (r - sumVec ((List.range (n + 1)).map (fun i => base + ((rnd (pos + i) % 20 : ℕ) : ℤ))))
      (b := d) (by omega)
    omega
  · exact Or.inr h

/-! ### A direction -/

variable {may : ℤ → ℤ → Bool} {u : IVec} (Q : ℤ → ℤ → Prop)

theorem growLoop_ok (hQ : ∀ x y, may x y = true → Q x y → Q x (y + 1)) (hu : u.length = n + 1) :
    ∀ (t pos : ℕ) (v : IVec) (sum : ℤ), v.length = n + 1 → sum = v.sum → sum ≤ d →
    (∀ i < n + 1, Q (u.getD i 0) (v.getD i 0)) →
    growLoop rnd may n d u t pos v sum = .ok none ∨
    ∃ v' pos', growLoop rnd may n d u t pos v sum = .ok (some (v', pos')) ∧ v'.length = n + 1 ∧ v'.sum = d ∧
      ∀ i < n + 1, Q (u.getD i 0) (v'.getD i 0)
  | 0, _, _, _, _, _, _, _ => Or.inl rfl
  | t + 1, pos, v, sum, hv, hs, hd, hq => by
      unfold growLoop
      by_cases h : sum < d
      · have hk : rnd pos % (n + 1) < n + 1 := Nat.mod_lt _ (by omega)
        simp only
        rw [if_pos h, aget_lt (by omega : rnd pos % (n + 1) < u.length) 0, Res.bind_ok,
          aget_lt (by omega : rnd pos % (n + 1) < v.length) 0, Res.bind_ok]
        split
        · rename_i hm
          rw [aset, if_pos (by omega), Res.bind_ok]
          refine growLoop_ok hQ hu t (pos + 1) _ _ (by rw [List.length_set]; exact hv)
            (by rw [sum_set_succ (by omega), hs]) (by omega) ?_
          intro i hi
          rw [getD_set_eq _ (by omega)]
          split
          · rename_i hik
            subst hik
            exact hQ _ _ hm (hq _ hi)
          · exact hq i hi
        · exact growLoop_ok hQ hu t (pos + 1) v sum hv hs hd hq
      · rw [if_neg h]
        exact Or.inr ⟨v, pos, rfl, hv, by omega, hq⟩

/-- More passes do not change the result. -/
theorem growLoop_mono {x : IVec × ℕ} : ∀ (t s pos : ℕ) (v : IVec) (sum : ℤ),
    growLoop rnd may n d u t pos v sum = .ok (some x) → growLoop rnd may n d u (t + s) pos v sum = .ok (some x)
  | 0, _, _, _, _, h => by cases h
  | t + 1, s, pos, v, sum, h => by
      rw [show t + 1 + s = (t + s) + 1 by omega]
      unfold growLoop at h ⊢
      split
      · rename_i hs
        rw [if_pos hs] at h
        simp only [Res.bind_eq_ok] at h ⊢
        obtain ⟨a, ha, b, hb, h⟩ := h
        refine ⟨a, ha, b, hb, ?_⟩
        split
        · rename_i hm
          rw [if_pos hm, Res.bind_eq_ok] at h
          rw [Res.bind_eq_ok]
          obtain ⟨c, hc, h⟩ := h
          exact ⟨c, hc, growLoop_mono t s _ _ _ h⟩
        · rename_i hm
          rw [if_neg hm] at h
          exact growLoop_mono t s _ _ _ h
      · rename_i hs
        rw [if_neg hs] at h
        exact h

/-- Every residue modulo `m` is drawn again and again. -/
def Fair (rnd : ℕ → ℕ) (m : ℕ) : Prop := ∀ k < m, ∀ pos, ∃ j, pos ≤ j ∧ rnd j % m = k

/-- For a fair sequence the loop ends, if as long as the degree is too small some coordinate may be raised. -/
theorem growLoop_ends (hfair : Fair rnd (n + 1)) (hQ : ∀ x y, may x y = true → Q x y → Q x (y + 1))
    (hu : u.length = n + 1)
    (hroom : ∀ v : IVec, v.length = n + 1 → v.sum < d → (∀ i < n + 1, Q (u.getD i 0) (v.getD i 0)) →
      ∃ k < n + 1, may (u.getD k 0) (v.getD k 0) = true) :
    ∀ (m : ℕ) (pos : ℕ) (v : IVec) (sum : ℤ), v.length = n + 1 → sum = v.sum → sum ≤ d → (d : ℤ) - sum ≤ m →
      (∀ i < n + 1, Q (u.getD i 0) (v.getD i 0)) →
      ∃ t x, growLoop rnd may n d u t pos v sum = .ok (some x) := by
  intro m
  induction m with
  | zero =>
    intro pos v sum hv hs hd hm hq
    exact ⟨1, (v, pos), by unfold growLoop; rw [if_neg (by push_cast at hm; omega)]⟩
  | succ m ih =>
    intro pos v sum hv hs hd hm hq
    by_cases h : sum < d
    · obtain ⟨k, hk, hmay⟩ := hroom v hv (by omega) hq
      obtain ⟨j, hj, hjk⟩ := hfair k hk pos
      obtain ⟨e, rfl⟩ : ∃ e, j = pos + e := ⟨j - pos, by omega⟩
      clear hj
      induction e generalizing pos with
      | zero =>
        rw [Nat.add_zero] at hjk
        obtain ⟨t, x, ht⟩ := ih (pos + 1) (v.set k (v.getD k 0 + 1)) (sum + 1) (by rw [List.length_set]; exact hv)
          (by rw [sum_set_succ (by omega), hs]) (by omega) (by push_cast at hm; omega) (by
            intro i hi
            rw [getD_set_eq _ (by omega)]
            split
            · rename_i hik; subst hik; exact hQ _ _ hmay (hq _ hi)
            · exact hq i hi)
        refine ⟨t + 1, x, ?_⟩
        unfold growLoop
        simp only
        rw [if_pos h, hjk, aget_lt (by omega : k < u.length) 0, Res.bind_ok, aget_lt (by omega : k < v.length) 0,
          Res.bind_ok, if_pos hmay, aset, if_pos (by omega), Res.bind_ok]
        exact ht
      | succ e ihe =>
        have hk' : rnd pos % (n + 1) < n + 1 := Nat.mod_lt _ (by omega)
        by_cases hm' : may (u.getD (rnd pos % (n + 1)) 0) (v.getD (rnd pos % (n + 1)) 0) = true
        · obtain ⟨t, x, ht⟩ := ih (pos + 1) (v.set (rnd pos % (n + 1)) (v.getD (rnd pos % (n + 1)) 0 + 1)) (sum + 1)
            (by rw [List.length_set]; exact hv)
            (by rw [sum_set_succ (by omega), hs]) (by omega) (by push_cast at hm; omega) (by
              intro i hi
              rw [getD_set_eq _ (by omega)]
              split
              · rename_i hik; subst hik; exact hQ _ _ hm' (hq _ hi)
              · exact hq i hi)
          refine ⟨t + 1, x, ?_⟩
          unfold growLoop
          simp only
          rw [if_pos h, aget_lt (by omega : rnd pos % (n + 1) < u.length) 0, Res.bind_ok,
            aget_lt (by omega : rnd pos % (n + 1) < v.length) 0,
            Res.bind_ok, if_pos hm', aset, if_pos (by omega), Res.bind_ok]
          exact ht
        · obtain ⟨t, x, ht⟩ := ihe (pos + 1) (by rw [show pos + 1 + e = pos + (e + 1) by omega]; exact hjk)
          refine ⟨t + 1, x, ?_⟩
          unfold growLoop
          simp only
          rw [if_pos h, aget_lt (by omega : rnd pos % (n + 1) < u.length) 0, Res.bind_ok,
            aget_lt (by omega : rnd pos % (n + 1) < v.length) 0,
            Res.bind_ok, if_neg hm']
          exact ht
    · exact ⟨1, (v, pos), by unfold growLoop; rw [if_neg h]⟩

end

/-! ### Paths -/

/-- What the loops need to know about the choice of a direction with at most `t` passes. -/
structure DirOK (n d : ℕ) (low : ℤ) (Good : IVec → Prop) (IsP : IVec → List IVec → Prop)
    (dir : ℕ → ℕ → IVec → Res (Option (IVec × ℕ))) : Prop where
  len : ∀ u, Good u → u.length = n + 1
  nil : ∀ u, Good u → u.sum = low → IsP u []
  ok : ∀ t pos u, Good u → low + d ≤ u.sum → dir t pos u = .ok none ∨
    ∃ v pos', dir t pos u = .ok (some (v, pos')) ∧ v.length = n + 1 ∧ v.sum = d ∧
      Good (List.zipWith (· - ·) u v) ∧ ∀ vs, IsP (List.zipWith (· - ·) u v) vs → IsP u (v :: vs)
  mono : ∀ t s pos u x, dir t pos u = .ok (some x) → dir (t + s) pos u = .ok (some x)

section

variable {n d : ℕ} {low : ℤ} {Good : IVec → Prop} {IsP : IVec → List IVec → Prop}
  {dir : ℕ → ℕ → IVec → Res (Option (IVec × ℕ))} (H : DirOK n d low Good IsP dir) (hd : 0 < d)

theorem sum_zipWith_sub : ∀ {a b : List ℤ}, a.length = b.length → (List.zipWith (· - ·) a b).sum = a.sum - b.sum
  | [], [], _ => rfl
  | a :: as, b :: bs, h => by
      have := sum_zipWith_sub (a := as) (b := bs) (by simpa using h)
      simp only [List.zipWith_cons_cons, List.sum_cons, this]; ring
  | [], _ :: _, h => by simp at h
  | _ :: _, [], h => by simp at h

include H hd

theorem drawPath_ok (t' : ℕ) : ∀ (t pos : ℕ) (u : IVec) (m : ℕ), Good u → u.sum = low + m * d →
    drawPath (dir t') d low t pos u u.sum = .ok none ∨
    ∃ vs pos', drawPath (dir t') d low t pos u u.sum = .ok (some (vs, pos')) ∧ IsP u vs
  | 0, _, _, _, _, _ => Or.inl rfl
  | t + 1, pos, u, m, hu, hm => by
      unfold drawPath
      cases m with
      | zero =>
        rw [if_neg (by rw [hm]; push_cast; omega)]
        exact Or.inr ⟨[], pos, rfl, H.nil u hu (by simpa using hm)⟩
      | succ m =>
        have hge : low + d ≤ u.sum := by rw [hm]; push_cast; nlinarith [Int.natCast_nonneg m, Int.natCast_nonneg d]
        rw [if_pos (by omega)]
        rcases H.ok t' pos u hu hge with h | ⟨v, pos', h, hv, hs, hg, hp⟩
        · rw [h]; exact Or.inl rfl
        · have hl : u.length = v.length := by rw [H.len u hu, hv]
          have hsum : (List.zipWith (· - ·) u v).sum = u.sum - d := by rw [sum_zipWith_sub hl, hs]
          rw [h, Res.bind_ok]
          simp only
          rw [subVec_ok hl, Res.bind_ok, ← hsum]
          rcases drawPath_ok t' t pos' _ m hg (by rw [hsum, hm]; push_cast; ring) with h1 | ⟨vs, pos2, h1, h2⟩
          · rw [h1]; exact Or.inl rfl
          · rw [h1]
            exact Or.inr ⟨v :: vs, pos2, rfl, hp vs h2⟩

omit H hd in
theorem drawPath_mono {dir1 dir2 : ℕ → IVec → Res (Option (IVec × ℕ))}
    (hdir : ∀ pos u x, dir1 pos u = .ok (some x) → dir2 pos u = .ok (some x)) (s : ℕ) :
    ∀ (t pos : ℕ) (u : IVec) (sum : ℤ) (x : List IVec × ℕ), drawPath dir1 d low t pos u sum = .ok (some x) →
      drawPath dir2 d low (t + s) pos u sum = .ok (some x)
  | 0, _, _, _, _, h => by cases h
  | t + 1, pos, u, sum, x, h => by
      rw [show t + 1 + s = (t + s) + 1 by omega]
      unfold drawPath at h ⊢
      by_cases hs : sum > low
      · rw [if_pos hs, Res.bind_eq_ok] at h
        rw [if_pos hs]
        obtain ⟨o, ho, h⟩ := h
        cases o with
        | none => cases h
        | some y =>
          rw [hdir pos u y ho, Res.bind_ok]
          simp only at h ⊢
          rw [Res.bind_eq_ok] at h
          obtain ⟨u', hu', h⟩ := h
          rw [hu', Res.bind_ok]
          rw [Res.bind_eq_ok] at h
          obtain ⟨o', ho', h⟩ := h
          cases o' with
          | none => cases h
          | some z =>
            rw [drawPath_mono hdir s t _ _ _ z ho', Res.bind_ok]
            exact h
      · rw [if_neg hs] at h ⊢
        exact h

theorem drawPath_ends (hends : ∀ pos u, Good u → low + d ≤ u.sum → ∃ t x, dir t pos u = .ok (some x)) :
    ∀ (m pos : ℕ) (u : IVec), Good u → u.sum = low + m * d →
    ∃ t x, drawPath (dir t) d low t pos u u.sum = .ok (some x)
  | 0, pos, u, hu, hm => ⟨1, ([], pos), by unfold drawPath; rw [if_neg (by rw [hm]; push_cast; omega)]⟩
  | m + 1, pos, u, hu, hm => by
      have hge : low + d ≤ u.sum := by rw [hm]; push_cast; nlinarith [Int.natCast_nonneg m, Int.natCast_nonneg d]
      obtain ⟨t1, x1, h1⟩ := hends pos u hu hge
      rcases H.ok t1 pos u hu hge with h | ⟨v, pos', h, hv, hs, hg, hp⟩
      · rw [h] at h1; cases h1
      · have hl : u.length = v.length := by rw [H.len u hu, hv]
        have hsum : (List.zipWith (· - ·) u v).sum = u.sum - d := by rw [sum_zipWith_sub hl, hs]
        obtain ⟨t2, x2, h2⟩ := drawPath_ends hends m pos' _ hg (by rw [hsum, hm]; push_cast; ring)
        refine ⟨(t1 + t2) + 1, (v :: x2.1, x2.2), ?_⟩
        unfold drawPath
        rw [if_pos (by omega), show t1 + t2 + 1 = t1 + (t2 + 1) by omega, H.mono _ _ _ _ _ h, Res.bind_ok]
        simp only
        rw [subVec_ok hl, Res.bind_ok, ← hsum]
        have h3 := drawPath_mono (dir2 := dir (t1 + (t2 + 1))) (fun pos u x hx => by
          rw [show t1 + (t2 + 1) = t2 + (t1 + 1) by omega]; exact H.mono _ _ _ _ _ hx) t1 t2 _ _ _ _ h2
        rw [show t1 + t2 = t2 + t1 by omega, h3]
        rfl

theorem drawPaths_ok (t : ℕ) {u : IVec} {m : ℕ} (hu : Good u) (hm : u.sum = low + m * d) : ∀ (c pos : ℕ),
    drawPaths (dir t) d low t u c pos = .ok none ∨
    ∃ l pos', drawPaths (dir t) d low t u c pos = .ok (some (l, pos')) ∧ l.length = c ∧ ∀ vs ∈ l, IsP u vs
  | 0, pos => Or.inr ⟨[], pos, rfl, rfl, by simp⟩
  | c + 1, pos => by
      unfold drawPaths
      rw [sumVec_eq_sum]
      rcases drawPath_ok H hd t t pos u m hu hm with h | ⟨vs, pos', h, h1⟩
      · rw [h]; exact Or.inl rfl
      · rw [h, Res.bind_ok]
        simp only
        rcases drawPaths_ok t hu hm c pos' with h2 | ⟨l, pos2, h2, h3, h4⟩
        · rw [h2]; exact Or.inl rfl
        · rw [h2]
          refine Or.inr ⟨vs :: l, pos2, rfl, by simp [h3], ?_⟩
          intro w hw
          rcases List.mem_cons.1 hw with rfl | hw
          · exact h1
          · exact h4 w hw

omit H hd in
theorem drawPaths_mono {dir1 dir2 : ℕ → IVec → Res (Option (IVec × ℕ))}
    (hdir : ∀ pos u x, dir1 pos u = .ok (some x) → dir2 pos u = .ok (some x)) (t s : ℕ) (u : IVec) :
    ∀ (c pos : ℕ) (x : List (List IVec) × ℕ), drawPaths dir1 d low t u c pos = .ok (some x) →
      drawPaths dir2 d low (t + s) u c pos = .ok (some x)
  | 0, _, _, h => h
  | c + 1, pos, x, h => by
      unfold drawPaths at h ⊢
      rw [Res.bind_eq_ok] at h
      obtain ⟨o, ho, h⟩ := h
      cases o with
      | none => cases h
      | some y =>
        rw [drawPath_mono hdir s _ _ _ _ _ ho, Res.bind_ok]
        simp only at h ⊢
        rw [Res.bind_eq_ok] at h
        obtain ⟨o', ho', h⟩ := h
        cases o' with
        | none => cases h
        | some z =>
          rw [drawPaths_mono hdir t s u c _ z ho', Res.bind_ok]
          exact h

theorem drawPaths_ends (hends : ∀ pos u, Good u → low + d ≤ u.sum → ∃ t x, dir t pos u = .ok (some x))
    {u : IVec} {m : ℕ} (hu : Good u) (hm : u.sum = low + m * d) : ∀ (c pos : ℕ),
    ∃ t x, drawPaths (dir t) d low t u c pos = .ok (some x)
  | 0, pos => ⟨0, ([], pos), rfl⟩
  | c + 1, pos => by
      obtain ⟨t1, x1, h1⟩ := drawPath_ends H hd hends m pos u hu hm
      obtain ⟨t2, x2, h2⟩ := drawPaths_ends hends hu hm c x1.2
      refine ⟨t1 + t2, (x1.1 :: x2.1, x2.2), ?_⟩
      unfold drawPaths
      rw [sumVec_eq_sum, drawPath_mono (dir2 := dir (t1 + t2)) (fun pos u x hx => H.mono _ _ _ _ _ hx) t2 t1 _ _ _ _ h1,
        Res.bind_ok]
      simp only
      rw [show t1 + t2 = t2 + t1 by omega, drawPaths_mono (dir2 := dir (t2 + t1))
        (fun pos u x hx => H.mono _ _ _ _ _ hx) t2 t1 u _ _ _ h2]
      rfl

/-- What is known about the starting points. -/
structure StartOK (d : ℕ) (low : ℤ) (Good : IVec → Prop) (start : ℕ → ℕ → Res (Option (IVec × ℕ))) : Prop where
  ok : ∀ t pos, (start t pos = .ok none ∧ t < d) ∨
    ∃ u pos', start t pos = .ok (some (u, pos')) ∧ Good u ∧ ∃ m : ℕ, u.sum = low + m * d
  mono : ∀ t s pos x, start t pos = .ok (some x) → start (t + s) pos = .ok (some x)

variable {start : ℕ → ℕ → Res (Option (IVec × ℕ))} (S : StartOK d low Good start)

include S

theorem drawAttempts_ok (t paths : ℕ) : ∀ (c pos : ℕ),
    drawAttempts (start t) (dir t) d low t paths c pos = .ok none ∨
    ∃ att, drawAttempts (start t) (dir t) d low t paths c pos = .ok (some att) ∧ att.length = c ∧
      ∀ a ∈ att, Good a.1 ∧ a.2.length = paths ∧ ∀ vs ∈ a.2, IsP a.1 vs
  | 0, pos => Or.inr ⟨[], rfl, rfl, by simp⟩
  | c + 1, pos => by
      unfold drawAttempts
      rcases S.ok t pos with ⟨h, -⟩ | ⟨u, pos', h, hu, m, hm⟩
      · rw [h]; exact Or.inl rfl
      · rw [h, Res.bind_ok]
        simp only
        rcases drawPaths_ok H hd t hu hm paths pos' with h1 | ⟨l, pos2, h1, h2, h3⟩
        · rw [h1]; exact Or.inl rfl
        · rw [h1, Res.bind_ok]
          simp only
          rcases drawAttempts_ok t paths c pos2 with h4 | ⟨att, h4, h5, h6⟩
          · rw [h4]; exact Or.inl rfl
          · rw [h4]
            refine Or.inr ⟨(u, l) :: att, rfl, by simp [h5], ?_⟩
            intro a ha
            rcases List.mem_cons.1 ha with rfl | ha
            · exact ⟨hu, h2, h3⟩
            · exact h6 a ha

omit H hd S in
theorem drawAttempts_mono {start1 start2 : ℕ → Res (Option (IVec × ℕ))} {dir1 dir2 : ℕ → IVec → Res (Option (IVec × ℕ))}
    (hstart : ∀ pos x, start1 pos = .ok (some x) → start2 pos = .ok (some x))
    (hdir : ∀ pos u x, dir1 pos u = .ok (some x) → dir2 pos u = .ok (some x)) (t s paths : ℕ) :
    ∀ (c pos : ℕ) (x : List (IVec × List (List IVec))), drawAttempts start1 dir1 d low t paths c pos = .ok (some x) →
      drawAttempts start2 dir2 d low (t + s) paths c pos = .ok (some x)
  | 0, _, _, h => h
  | c + 1, pos, x, h => by
      unfold drawAttempts at h ⊢
      rw [Res.bind_eq_ok] at h
      obtain ⟨o, ho, h⟩ := h
      cases o with
      | none => cases h
      | some y =>
        rw [hstart _ _ ho, Res.bind_ok]
        simp only at h ⊢
        rw [Res.bind_eq_ok] at h
        obtain ⟨o', ho', h⟩ := h
        cases o' with
        | none => cases h
        | some z =>
          rw [drawPaths_mono hdir t s _ _ _ z ho', Res.bind_ok]
          simp only at h ⊢
          rw [Res.bind_eq_ok] at h
          obtain ⟨o'', ho'', h⟩ := h
          cases o'' with
          | none => cases h
          | some w =>
            rw [drawAttempts_mono hstart hdir t s paths c _ w ho'', Res.bind_ok]
            exact h

theorem drawAttempts_ends (hends : ∀ pos u, Good u → low + d ≤ u.sum → ∃ t x, dir t pos u = .ok (some x)) (paths : ℕ) :
    ∀ (c pos : ℕ), ∃ t x, drawAttempts (start t) (dir t) d low t paths c pos = .ok (some x)
  | 0, pos => ⟨0, [], rfl⟩
  | c + 1, pos => by
      rcases S.ok d pos with ⟨-, h⟩ | ⟨u, pos', h, hu, m, hm⟩
      · omega
      · obtain ⟨t1, x1, h1⟩ := drawPaths_ends H hd hends hu hm paths pos'
        obtain ⟨t2, x2, h2⟩ := drawAttempts_ends hends paths c x1.2
        refine ⟨d + t1 + t2, (u, x1.1) :: x2, ?_⟩
        unfold drawAttempts
        rw [show d + t1 + t2 = d + (t1 + t2) by omega, S.mono _ _ _ _ h, Res.bind_ok]
        simp only
        rw [show d + (t1 + t2) = t1 + (d + t2) by omega,
          drawPaths_mono (dir2 := dir (t1 + (d + t2))) (fun pos u x hx => H.mono _ _ _ _ _ hx) t1 (d + t2) u _ _ _ h1,
          Res.bind_ok]
        simp only
        rw [show t1 + (d + t2) = t2 + (d + t1) by omega,
          drawAttempts_mono (start2 := start (t2 + (d + t1))) (dir2 := dir (t2 + (d + t1)))
            (fun pos x hx => S.mono _ _ _ _ hx) (fun pos u x hx => H.mono _ _ _ _ _ hx) t2 (d + t1) _ _ _ _ h2]
        rfl

end

/-! ### The two tests -/

section

variable (rnd : ℕ → ℕ) {n d : ℕ}

theorem bumpLoop_mono {r : ℕ} {x : IVec × ℕ} : ∀ (t s pos : ℕ) (u : IVec) (sum : ℤ),
    bumpLoop rnd n d r t pos u sum = .ok (some x) → bumpLoop rnd n d r (t + s) pos u sum = .ok (some x)
  | 0, _, _, _, _, h => by cases h
  | t + 1, s, pos, u, sum, h => by
      rw [show t + 1 + s = (t + s) + 1 by omega]
      unfold bumpLoop at h ⊢
      by_cases hs : sum % d ≠ r
      · rw [if_pos hs] at h ⊢
        simp only [Res.bind_eq_ok] at h ⊢
        obtain ⟨a, ha, b, hb, h⟩ := h
        exact ⟨a, ha, b, hb, bumpLoop_mono t s _ _ _ h⟩
      · rw [if_neg hs] at h ⊢
        exact h

theorem mem_getD {u : List ℤ} {i : ℕ} (h : i < u.length) : u.getD i 0 ∈ u := by
  rw [List.getD_eq_getElem?_getD, List.getElem?_eq_getElem h]; exact List.getElem_mem h

theorem getD_zipWith_sub {u v : List ℤ} (h : u.length = v.length) (i : ℕ) :
    (List.zipWith (· - ·) u v).getD i 0 = u.getD i 0 - v.getD i 0 := by
  simp only [List.getD_eq_getElem?_getD, List.getElem?_zipWith]
  by_cases hi : i < u.length
  · rw [List.getElem?_eq_getElem hi, List.getElem?_eq_getElem (by omega)]; rfl
  · rw [List.getElem?_eq_none (by omega), List.getElem?_eq_none (by omega)]; rfl

theorem forall_of_getD {u : List ℤ} {P : ℤ → Prop} {m : ℕ} (hm : u.length = m) (h : ∀ i < m, P (u.getD i 0)) :
    ∀ x ∈ u, P x := by
  intro x hx
  obtain ⟨i, hi, rfl⟩ := List.getElem_of_mem hx
  have := h i (by omega)
  rwa [List.getD_eq_getElem?_getD, List.getElem?_eq_getElem hi] at this

theorem sum_le_of_getD {u v : IVec} (hu : u.length = n + 1) (hv : v.length = n + 1) (c : ℤ)
    (h : ∀ i < n + 1, u.getD i 0 ≤ v.getD i 0 + c) : u.sum ≤ v.sum + (n + 1) * c := by
  rw [← sum_ev hu, ← sum_ev hv]
  calc ∑ i, ev n u i ≤ ∑ i, (ev n v i + c) := Finset.sum_le_sum (fun i _ => h i i.isLt)
    _ = _ := by rw [Finset.sum_add_distrib, Finset.sum_const, Finset.card_univ, Fintype.card_fin]; simp

def GoodJ (n : ℕ) (u : IVec) : Prop := u.length = n + 1 ∧ NonNeg u

def GoodND (n : ℕ) (u : IVec) : Prop := u.length = n + 1 ∧ ∀ x ∈ u, 1 ≤ x

def QJ (x y : ℤ) : Prop := 0 ≤ y ∧ y ≤ x ∧ (0 < x → 0 < y)

def QND (x y : ℤ) : Prop := 0 ≤ y ∧ y + 1 ≤ x

theorem startJ (hnd : n < d) : StartOK d n (GoodJ n) (drawStart rnd n d n 0) where
  ok t pos := by
    rcases drawStart_ok (rnd := rnd) (n := n) hnd 0 t pos with h | ⟨u, pos', h, hl, hs, hb⟩
    · exact Or.inl h
    · refine Or.inr ⟨u, pos', h, ⟨hl, hb⟩, ?_⟩
      have h0 : 0 ≤ u.sum := List.sum_nonneg hb
      have h1 := Int.emod_add_mul_ediv u.sum d
      exact ⟨(u.sum / d).toNat, by
        rw [Int.toNat_of_nonneg (Int.ediv_nonneg h0 (by omega))]; rw [hs] at h1; linarith⟩
  mono t s pos x h := bumpLoop_mono rnd t s _ _ _ h

theorem startND (hd : 0 < d) : StartOK d d (GoodND n) (drawStart rnd n d 0 1) where
  ok t pos := by
    rcases drawStart_ok (rnd := rnd) (n := n) hd 1 t pos with h | ⟨u, pos', h, hl, hs, hb⟩
    · exact Or.inl h
    · refine Or.inr ⟨u, pos', h, ⟨hl, hb⟩, ?_⟩
      have h0 : 0 ≤ u.sum := List.sum_nonneg (fun x hx => by have := hb x hx; omega)
      have h1 := Int.emod_add_mul_ediv u.sum d
      have hpos : 1 ≤ u.sum := by
        have hm : u.getD 0 0 ∈ u := mem_getD (by omega)
        have := List.single_le_sum (l := u) (fun x hx => by have := hb x hx; omega) _ hm
        have := hb _ hm
        omega
      rw [hs] at h1
      have hq : 1 ≤ u.sum / d := by
        by_contra hc
        have : u.sum / d = 0 := by have := Int.ediv_nonneg h0 (b := d) (by omega); omega
        rw [this] at h1
        push_cast at h1
        omega
      exact ⟨(u.sum / d - 1).toNat, by rw [Int.toNat_of_nonneg (by omega)]; push_cast at h1; linarith⟩
  mono t s pos x h := bumpLoop_mono rnd t s _ _ _ h

theorem stepJ (x y : ℤ) (h : (decide (x > 0) && decide (y < x)) = true) (hq : QJ x y) : QJ x (y + 1) := by
  simp only [Bool.and_eq_true, decide_eq_true_eq] at h
  obtain ⟨h1, h2, h3⟩ := hq
  exact ⟨by omega, by omega, by omega⟩

theorem stepND (x y : ℤ) (h : decide (x > y + 1) = true) (hq : QND x y) : QND x (y + 1) := by
  simp only [decide_eq_true_eq] at h
  obtain ⟨h1, h2⟩ := hq
  exact ⟨by omega, by omega⟩

/-- The first direction of `test_paths_J`. -/
theorem firstJ {u : IVec} (hu : GoodJ n u) (hnd : n < d) :
    (u.map (fun x => if x > 0 then (1 : ℤ) else 0)).length = n + 1 ∧
    (u.map (fun x => if x > 0 then (1 : ℤ) else 0)).sum ≤ d ∧
    ∀ i < n + 1, QJ (u.getD i 0) ((u.map (fun x => if x > 0 then (1 : ℤ) else 0)).getD i 0) := by
  have hl : (u.map (fun x => if x > 0 then (1 : ℤ) else 0)).length = n + 1 := by rw [List.length_map]; exact hu.1
  have hg : ∀ i < n + 1, (u.map (fun x => if x > 0 then (1 : ℤ) else 0)).getD i 0 = if u.getD i 0 > 0 then 1 else 0 := by
    intro i hi
    have : i < u.length := by have := hu.1; omega
    simp only [List.getD_eq_getElem?_getD, List.getElem?_map, List.getElem?_eq_getElem this]
    rfl
  refine ⟨hl, ?_, ?_⟩
  · have := sum_le_of_getD (n := n) hl (v := List.replicate (n + 1) 0) (by simp) 1 (by
      intro i hi
      rw [hg i hi]
      have : (List.replicate (n + 1) (0 : ℤ)).getD i 0 = 0 := by
        rw [List.getD_eq_getElem?_getD, List.getElem?_replicate]; split <;> rfl
      rw [this]
      split <;> omega)
    rw [List.sum_replicate] at this
    simp only [smul_zero] at this
    omega
  · intro i hi
    rw [hg i hi]
    have := hu.2 _ (mem_getD (u := u) (i := i) (by have := hu.1; omega))
    refine ⟨?_, ?_, ?_⟩ <;> split <;> omega

theorem dirJ (hnd : n < d) : DirOK n d n (GoodJ n) (fun u vs => IsPath n d (ev n u) vs) (drawDirJ rnd n d) where
  len u hu := hu.1
  nil u hu hs := by
    show ∑ i, ev n u i = n
    rw [sum_ev hu.1, hs]
  ok t pos u hu hge := by
    obtain ⟨h1, h2, h3⟩ := firstJ hu hnd
    rcases growLoop_ok (rnd := rnd) QJ stepJ hu.1 t pos _ _ h1 (sumVec_eq_sum _) (by rw [sumVec_eq_sum]; exact h2) h3
      with h | ⟨v, pos', h, hl, hs, hq⟩
    · exact Or.inl h
    · have hlen : u.length = v.length := by rw [hu.1, hl]
      refine Or.inr ⟨v, pos', h, hl, hs, ⟨by rw [List.length_zipWith, hu.1, hl]; simp, ?_⟩, ?_⟩
      · refine forall_of_getD (m := n + 1) (by rw [List.length_zipWith, hu.1, hl]; simp) (P := fun x => 0 ≤ x) ?_
        intro i hi
        rw [getD_zipWith_sub hlen]
        have := (hq i hi).2.1
        omega
      · intro vs hp
        rw [ev_sub hlen] at hp
        exact ⟨⟨hl, forall_of_getD (m := n + 1) hl (fun i hi => (hq i hi).1), hs⟩, fun i => (hq i i.isLt).2.1,
          fun i => (hq i i.isLt).2.2, hp⟩
  mono t s pos u x h := growLoop_mono t s _ _ _ h

theorem dirJ_ends (hnd : n < d) (hfair : Fair rnd (n + 1)) (pos : ℕ) (u : IVec) (hu : GoodJ n u) (hge : (n : ℤ) + d ≤ u.sum) :
    ∃ t x, drawDirJ rnd n d t pos u = .ok (some x) := by
  obtain ⟨h1, h2, h3⟩ := firstJ hu hnd
  have h0 : 0 ≤ sumVec (u.map (fun x => if x > 0 then (1 : ℤ) else 0)) := by
    rw [sumVec_eq_sum]
    refine List.sum_nonneg (fun x hx => ?_)
    obtain ⟨y, -, rfl⟩ := List.mem_map.1 hx
    split <;> omega
  refine growLoop_ends QJ hfair stepJ hu.1 ?_ d pos _ _ h1 (sumVec_eq_sum _) (by rw [sumVec_eq_sum]; exact h2)
    (by omega) h3
  intro v hv hs hq
  by_contra hc
  push Not at hc
  have := sum_le_of_getD hu.1 hv 0 (by
    intro i hi
    have h4 := hc i hi
    obtain ⟨h5, h6, h7⟩ := hq i hi
    simp only [Bool.and_eq_true, decide_eq_true_eq, not_and, ne_eq] at h4
    omega)
  omega

theorem dirND (hd : 0 < d) : DirOK n d d (GoodND n) (fun u vs => IsPathND n d (ev n u) vs) (drawDirND rnd n d) where
  len u hu := hu.1
  nil u hu hs := by
    show ∑ i, ev n u i = d
    rw [sum_ev hu.1, hs]
  ok t pos u hu hge := by
    rcases growLoop_ok (rnd := rnd) (d := d) QND stepND hu.1 t pos (List.replicate (n + 1) 0) 0 (by simp) (by simp) (by omega) (by
      intro i hi
      have h0 : (List.replicate (n + 1) (0 : ℤ)).getD i 0 = 0 := by
        rw [List.getD_eq_getElem?_getD, List.getElem?_replicate]; split <;> rfl
      rw [h0]
      have := hu.2 _ (mem_getD (u := u) (i := i) (by have := hu.1; omega))
      exact ⟨le_rfl, by omega⟩) with h | ⟨v, pos', h, hl, hs, hq⟩
    · exact Or.inl h
    · have hlen : u.length = v.length := by rw [hu.1, hl]
      refine Or.inr ⟨v, pos', h, hl, hs, ⟨by rw [List.length_zipWith, hu.1, hl]; simp, ?_⟩, ?_⟩
      · refine forall_of_getD (m := n + 1) (by rw [List.length_zipWith, hu.1, hl]; simp) (P := fun x => 1 ≤ x) ?_
        intro i hi
        rw [getD_zipWith_sub hlen]
        have := (hq i hi).2
        omega
      · intro vs hp
        rw [ev_sub hlen] at hp
        exact ⟨⟨hl, forall_of_getD (m := n + 1) hl (fun i hi => (hq i hi).1), hs⟩,
          fun i => by have := (hq i i.isLt).2; simp only [ev]; omega, hp⟩
  mono t s pos u x h := growLoop_mono t s _ _ _ h

theorem dirND_ends (hnd : n < d) (hfair : Fair rnd (n + 1)) (pos : ℕ) (u : IVec) (hu : GoodND n u)
    (hge : (d : ℤ) + d ≤ u.sum) : ∃ t x, drawDirND rnd n d t pos u = .ok (some x) := by
  refine growLoop_ends QND hfair stepND hu.1 ?_ d pos (List.replicate (n + 1) 0) 0 (by simp) (by simp) (by omega) (by omega) (by
    intro i hi
    have h0 : (List.replicate (n + 1) (0 : ℤ)).getD i 0 = 0 := by
      rw [List.getD_eq_getElem?_getD, List.getElem?_replicate]; split <;> rfl
    rw [h0]
    have := hu.2 _ (mem_getD (u := u) (i := i) (by have := hu.1; omega))
    exact ⟨le_rfl, by omega⟩)
  intro v hv hs hq
  by_contra hc
  push Not at hc
  have := sum_le_of_getD hu.1 hv 1 (by
    intro i hi
    have h4 := hc i hi
    simp only [decide_eq_true_eq, ne_eq] at h4
    omega)
  omega

end

end Verif
