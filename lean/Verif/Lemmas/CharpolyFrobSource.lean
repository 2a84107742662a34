import Verif.Lemmas.CharpolyFrobFacts

/-!
Lemmas for C15: the coefficients that `charpoly_frob` keeps from the matrix.
-/

namespace Verif

open Spec

theorem frobReduce_cp {p b : Nat} {prec cp : Nat → Int} {st : FrobSt}
    (h : frobReduce p b ⟨prec, fun _ => 0, cp⟩ = .ok st) :
    ∀ i, i ≤ b → st.cp i = cp i % (p : Int) ^ (prec i).toNat := by
  have := forRange_ok_inv (n := b + 1)
    (fun i (st : FrobSt) => st.prec = prec ∧ (∀ j, j < i → st.cp j = cp j % (p : Int) ^ (prec j).toNat) ∧
      ∀ j, i ≤ j → st.cp j = cp j)
    ⟨rfl, by intro j hj; omega, fun _ _ => rfl⟩
    (by
      rintro i st s' hi ⟨g1, g2, g3⟩ he
      obtain ⟨m, e1, e2⟩ := Res.bind_eq_ok.1 he
      cases e2
      obtain ⟨k1, k2⟩ := powerZZ_eq_ok e1
      rw [g1] at k2
      refine ⟨g1, fun j hj => ?_, fun j hj => ?_⟩
      · by_cases hji : j = i
        · subst hji; simp only [upd_self]; rw [g3 j le_rfl, k2]
        · simp only [upd_ne _ _ _ _ hji]; exact g2 j (by omega)
      · simp only [upd_ne _ _ _ _ (show j ≠ i by omega)]; exact g3 j (by omega)) h
  exact fun i hi => this.2.1 i (by omega)

theorem symStep_source {p b dim : Nat} {ε : ℤ} {i : Nat} {st st' : FrobSt} (h : symStep p b dim ε i st = .ok st') :
    (i ≠ b - i → st.prec (b - i) + halfWeight b dim i ≤ st.prec i → st'.cp i = st.cp i) ∧
    (st.prec i < st.prec (b - i) + halfWeight b dim i → i ≠ b - i → st'.cp (b - i) = st.cp (b - i)) ∧
    (∀ j, j ≠ i → j ≠ b - i → st'.cp j = st.cp j ∧ st'.prec j = st.prec j) := by
  obtain ⟨sh, hsh⟩ : ∃ sh, sh = halfWeight b dim i := ⟨_, rfl⟩
  unfold symStep at h
  simp only [symShift_eq, ← hsh] at h
  rw [← hsh]
  split at h
  · rename_i hge
    obtain ⟨m, -, h⟩ := Res.bind_eq_ok.1 h
    obtain ⟨_, -, h⟩ := Res.bind_eq_ok.1 h
    cases h
    refine ⟨fun hne _ => upd_ne _ _ _ _ hne, fun hlt => by omega, fun j _ hj => ⟨upd_ne _ _ _ _ hj, upd_ne _ _ _ _ hj⟩⟩
  · rename_i hge
    obtain ⟨m, -, h⟩ := Res.bind_eq_ok.1 h
    cases h
    refine ⟨fun _ hlt => by omega, fun _ hne => upd_ne _ _ _ _ (Ne.symm hne), fun j hj _ => ⟨upd_ne _ _ _ _ hj, upd_ne _ _ _ _ hj⟩⟩

theorem symLoop_source {p b dim : Nat} {ε : ℤ} {prec : Nat → Int} {st st' : FrobSt}
    (h : forRange (b / 2 + 1) st (symStep p b dim ε) = .ok st') (h1 : st.prec = prec) (j : Nat) (hj : 2 * j < b) :
    (prec (b - j) + halfWeight b dim j ≤ prec j → st'.cp j = st.cp j) ∧
    (prec j < prec (b - j) + halfWeight b dim j → st'.cp (b - j) = st.cp (b - j)) := by
  have hs := forRange_ok_inv (n := b / 2 + 1)
    (fun i (s : FrobSt) => (i ≤ j → s.cp j = st.cp j ∧ s.cp (b - j) = st.cp (b - j) ∧ s.prec j = prec j ∧ s.prec (b - j) = prec (b - j)) ∧
      (prec (b - j) + halfWeight b dim j ≤ prec j → s.cp j = st.cp j) ∧
      (prec j < prec (b - j) + halfWeight b dim j → s.cp (b - j) = st.cp (b - j)))
    ⟨fun _ => ⟨rfl, rfl, by rw [h1], by rw [h1]⟩, fun _ => rfl, fun _ => rfl⟩
    (by
      rintro i s s' hi ⟨g1, g2, g3⟩ he
      obtain ⟨a1, a2, a3⟩ := symStep_source he
      by_cases hij : i = j
      · subst hij
        obtain ⟨b1, b2, b3, b4⟩ := g1 le_rfl
        rw [b3, b4] at a1 a2
        exact ⟨fun h => by omega, fun h => (a1 (by omega) h).trans b1, fun h => (a2 h (by omega)).trans b2⟩
      · obtain ⟨c1, c2⟩ := a3 j (Ne.symm hij) (by omega)
        obtain ⟨d1, d2⟩ := a3 (b - j) (by omega) (by omega)
        refine ⟨fun h => ?_, fun h => c1.trans (g2 h), fun h => d1.trans (g3 h)⟩
        obtain ⟨b1, b2, b3, b4⟩ := g1 (by omega)
        exact ⟨c1.trans b1, d1.trans b2, c2.trans b3, d2.trans b4⟩) h
  exact hs.2

/-- The coefficients kept: `i` if its precision is at least that of `b - i` with the weight, and `b - i` otherwise. -/
theorem charpolyFrob_source {M : CMat Int} {prec : List Int} {p dim : Nat} (hp : 0 < p) {r cp : List Int}
    (h : charpolyFrob M prec p dim = .ok r) (hcp : charpoly M = .ok cp) :
    ∀ i, 1 ≤ i → 2 * i < M.rows →
      (prec.getD (M.rows - i) 0 + halfWeight M.rows dim i ≤ prec.getD i 0 →
        r.getD i 0 ≡ cp.getD i 0 [ZMOD (p : ℤ) ^ (prec.getD i 0).toNat]) ∧
      (prec.getD i 0 < prec.getD (M.rows - i) 0 + halfWeight M.rows dim i →
        r.getD (M.rows - i) 0 ≡ cp.getD (M.rows - i) 0 [ZMOD (p : ℤ) ^ (prec.getD (M.rows - i) 0).toNat]) := by
  unfold charpolyFrob at h
  rw [hcp, Res.bind_ok] at h
  obtain ⟨hb, hsq, hl⟩ := charpoly_length hcp
  obtain ⟨_, h1, h⟩ := Res.bind_eq_ok.1 h
  have h1 := of_decide_eq_true (check_eq_ok.1 h1)
  rw [hl] at h1
  obtain ⟨b, hbdef⟩ : ∃ b, b = M.rows := ⟨_, rfl⟩
  have hd : cp.length - 1 = b := by omega
  rw [← hbdef] at hb h1 hl ⊢
  simp only [hd] at h
  obtain ⟨st, e1, h⟩ := Res.bind_eq_ok.1 h
  obtain ⟨p1, m1⟩ := frobReduce_facts _ _ _ _ _ e1
  have c1 := frobReduce_cp e1
  obtain ⟨ε, e2, h⟩ := Res.bind_eq_ok.1 h
  obtain ⟨st2, e3, h⟩ := Res.bind_eq_ok.1 h
  obtain ⟨⟨⟩, e4, h⟩ := Res.bind_eq_ok.1 h
  obtain ⟨out, e5, h⟩ := Res.bind_eq_ok.1 h
  cases h
  have hε : ε = 1 ∨ ε = -1 := by
    unfold frobSign at e2
    split at e2
    · exact signLoop_values _ _ _ _ _ _ _ _ e2
    · cases e2; exact Or.inl rfl
  obtain ⟨q1, q2, q3, q4⟩ := symLoop_facts p b dim hb hp ε hε (fun i => prec.getD i 0) _ st2 e3 p1
    (by
      intro j hj
      simp only
      rw [p1]; exact m1 j hj)
    (by simp only [upd_self]; rfl)
    (by simp only [upd_ne _ _ _ _ (show b ≠ 0 by omega), upd_self])
  -- the lift keeps the residues
  have hL := forRange_ok_inv (n := b)
    (fun i (s : (Nat → Int) × (Nat → Int) × (Nat → Int)) =>
      (∀ j, i < j → j ≤ b → s.1 j = if j % 2 = 0 then st2.cp (b - j) else -st2.cp (b - j)) ∧
      (∀ j, j ≤ b → s.2.2 j ≡ st2.cp j [ZMOD st2.md j]))
    ⟨fun j _ _ => rfl, fun j _ => Int.ModEq.refl _⟩
    (by
      rintro k ⟨e, s, c⟩ s' hk ⟨g1, g2⟩ he
      simp only at g1 g2
      obtain ⟨f1, f2, x, f3, f4⟩ := liftStep_facts p b dim st2.md (k + 1) (by omega) e s c s' he
      refine ⟨?_, ?_⟩
      · intro j hj hjb
        rw [f1 j (by omega)]; exact g1 j (by omega) hjb
      · intro j hj
        by_cases hjk : j = b - (k + 1)
        · subst hjk
          rw [f4]
          rw [g1 (k + 1) (by omega) (by omega), neg_one_pow_ite] at f3
          have h2 := f3.mul_left ((-1) ^ (k + 1))
          rw [← mul_assoc, ← mul_pow] at h2
          simpa using h2
        · rw [f2 j hjk]; exact g2 j hj) e5
  have hget : ∀ i, i ≤ b → ((List.range (b + 1)).map out.2.2).getD i 0 = out.2.2 i := by
    intro i hi
    rw [List.getD_eq_getElem?_getD, List.getElem?_map, List.getElem?_range (by omega)]; rfl
  intro i hi1 hi
  obtain ⟨s1, s2⟩ := symLoop_source e3 p1 i hi
  simp only at s1 s2
  have hst : ∀ j, 1 ≤ j → j < b → (upd (upd st.cp b 1) 0 (ε * (p : Int) ^ (b * dim / 2))) j =
      cp.getD j 0 % (p : Int) ^ (prec.getD j 0).toNat := fun j j1 j2 => by
    rw [upd_ne _ _ _ _ (by omega), upd_ne _ _ _ _ (by omega), c1 j (by omega)]
  have hsp : sharedPrec b dim (fun i => prec.getD i 0) i
      = max (prec.getD i 0) (prec.getD (b - i) 0 + halfWeight b dim i) := by
    rw [sharedPrec, if_pos (by omega)]
  have hsp' : sharedPrec b dim (fun i => prec.getD i 0) (b - i)
      = max (prec.getD (b - i) 0) (prec.getD i 0 - halfWeight b dim i) := by
    rw [sharedPrec, if_neg (by omega), show b - (b - i) = i by omega]
  refine ⟨fun hc => ?_, fun hc => ?_⟩
  · have a1 := hL.2 i (by omega)
    rw [(q2 i (by omega)).2, q1 i (by omega), hsp, max_eq_left hc, s1 hc, hst i hi1 (by omega)] at a1
    rw [hget i (by omega)]
    exact a1.trans (Int.mod_modEq _ _)
  · have a1 := hL.2 (b - i) (by omega)
    rw [(q2 (b - i) (by omega)).2, q1 (b - i) (by omega), hsp', max_eq_left (by omega), s2 hc, hst (b - i) (by omega) (by omega)] at a1
    rw [hget (b - i) (by omega)]
    exact a1.trans (Int.mod_modEq _ _)

end Verif
