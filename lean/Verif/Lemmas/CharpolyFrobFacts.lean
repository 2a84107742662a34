import Verif.Lemmas.CharpolyFrob

namespace Verif

open Polynomial Spec

theorem charpoly_length {M : CMat Int} {cp : List Int} (h : charpoly M = .ok cp) :
    0 < M.rows ∧ M.rows = M.cols ∧ cp.length = M.rows + 1 := by
  unfold charpoly at h
  obtain ⟨_, h1, h⟩ := Res.bind_eq_ok.1 h
  have h1 := of_decide_eq_true (check_eq_ok.1 h1)
  split at h
  · cases h
  · obtain ⟨_, _, h⟩ := Res.bind_eq_ok.1 h
    obtain ⟨_, _, h⟩ := Res.bind_eq_ok.1 h
    cases h
    exact ⟨by omega, h1, by simp⟩

theorem forRange_check_facts {n : Nat} {c : Nat → Bool}
    (h : forRange n () (fun k _ => check (c k)) = .ok ()) : ∀ k, k < n → c k = true :=
  forRange_ok_inv (fun i _ => ∀ k, k < i → c k = true) (by intro k hk; omega)
    (by
      intro i s s' hi hP he k hk
      by_cases hki : k = i
      · subst hki; exact check_eq_ok.1 he
      · exact hP k (by omega)) h

theorem charpolyFrob_facts {M : CMat Int} {prec : List Int} {p dim : Nat} (hp : 0 < p) {r : List Int}
    (h : charpolyFrob M prec p dim = .ok r) :
    0 < M.rows ∧ M.rows = M.cols ∧ prec.length = M.rows + 1 ∧ r.length = M.rows + 1 ∧
    (∀ k, 1 ≤ k → k ≤ M.rows → precAssert p M.rows dim
      (sharedPrec M.rows dim (fun i => prec.getD i 0) (M.rows - k)) k = true) ∧
    r.getD M.rows 0 = 1 ∧
    ∃ ε : ℤ, (ε = 1 ∨ ε = -1) ∧ (dim % 2 = 1 → ε = 1) ∧
      ∀ i, 2 * i < M.rows →
        r.getD i 0 ≡ ε * (p : ℤ) ^ halfWeight M.rows dim i * r.getD (M.rows - i) 0
          [ZMOD (p : ℤ) ^ (sharedPrec M.rows dim (fun i => prec.getD i 0) i).toNat] := by
  unfold charpolyFrob at h
  obtain ⟨cp, hcp, h⟩ := Res.bind_eq_ok.1 h
  obtain ⟨hb, hsq, hl⟩ := charpoly_length hcp
  obtain ⟨_, h1, h⟩ := Res.bind_eq_ok.1 h
  have h1 := of_decide_eq_true (check_eq_ok.1 h1)
  rw [hl] at h1
  obtain ⟨b, hbdef⟩ : ∃ b, b = M.rows := ⟨_, rfl⟩
  have hd : cp.length - 1 = b := by omega
  rw [← hbdef] at hb h1 hl ⊢
  simp only [hd] at h
  obtain ⟨st, e1, h⟩ := Res.bind_eq_ok.1 h
  obtain ⟨p1, m1⟩ := frobReduce_facts _ _ _ _ _ e1
  obtain ⟨ε, e2, h⟩ := Res.bind_eq_ok.1 h
  obtain ⟨st2, e3, h⟩ := Res.bind_eq_ok.1 h
  obtain ⟨⟨⟩, e4, h⟩ := Res.bind_eq_ok.1 h
  obtain ⟨out, e5, h⟩ := Res.bind_eq_ok.1 h
  cases h
  have hε : ε = 1 ∨ ε = -1 := by
    unfold frobSign at e2
    split at e2
    · exact signLoop_values _ _ _ _ _ _ _ _ e2
    · cases e2; exact Or.inl rfl
  obtain ⟨q1, q2, q3, q4⟩ := symLoop_facts p b dim hb hp ε hε (fun i => prec.getD i 0) _ st2 e3 p1
    (by
      intro j hj
      simp only
      rw [p1]; exact m1 j hj)
    (by simp only [upd_self]; rfl)
    (by simp only [upd_ne _ _ _ _ (show b ≠ 0 by omega), upd_self])
  have hpa : ∀ k, 1 ≤ k → k ≤ b → precAssert p b dim
      (sharedPrec b dim (fun i => prec.getD i 0) (b - k)) k = true := by
    intro k hk1 hk2
    have := forRange_check_facts e4 (k - 1) (by omega)
    rw [show k - 1 + 1 = k by omega, q1 _ (by omega)] at this
    exact this
  have hlead := (lead_prec p b dim hb hp _ (by
    have := hpa b hb (le_refl b)
    rwa [Nat.sub_self] at this)).1
  have hcb := q4 hlead
  -- the lift keeps the residues
  have hL := forRange_ok_inv (n := b)
    (fun i (s : (Nat → Int) × (Nat → Int) × (Nat → Int)) =>
      (∀ j, i < j → j ≤ b → s.1 j = if j % 2 = 0 then st2.cp (b - j) else -st2.cp (b - j)) ∧
      (∀ j, j ≤ b → s.2.2 j ≡ st2.cp j [ZMOD st2.md j]) ∧ s.2.2 b = 1)
    ⟨fun j _ _ => rfl, fun j _ => Int.ModEq.refl _, hcb⟩
    (by
      rintro k ⟨e, s, c⟩ s' hk ⟨g1, g2, g3⟩ he
      simp only at g1 g2 g3
      obtain ⟨f1, f2, x, f3, f4⟩ := liftStep_facts p b dim st2.md (k + 1) (by omega) e s c s' he
      refine ⟨?_, ?_, ?_⟩
      · intro j hj hjb
        rw [f1 j (by omega)]; exact g1 j (by omega) hjb
      · intro j hj
        by_cases hjk : j = b - (k + 1)
        · subst hjk
          rw [f4]
          rw [g1 (k + 1) (by omega) (by omega), neg_one_pow_ite] at f3
          have h2 := f3.mul_left ((-1) ^ (k + 1))
          rw [← mul_assoc, ← mul_pow] at h2
          simpa using h2
        · rw [f2 j hjk]; exact g2 j hj
      · rw [f2 b (by omega)]; exact g3) e5
  have hget : ∀ i, i ≤ b → ((List.range (b + 1)).map out.2.2).getD i 0 = out.2.2 i := by
    intro i hi
    rw [List.getD_eq_getElem?_getD, List.getElem?_map, List.getElem?_range (by omega)]; rfl
  refine ⟨hb, by omega, h1, by simp, hpa, by rw [hget b (le_refl b)]; exact hL.2.2, ε, hε, ?_, ?_⟩
  · intro hodd
    unfold frobSign at e2
    rw [if_neg (by omega)] at e2
    cases e2; rfl
  · intro i hi
    rw [hget i (by omega), hget (b - i) (by omega)]
    have a1 := hL.2.1 i (by omega)
    have a2 := hL.2.1 (b - i) (by omega)
    rw [(q2 i (by omega)).2, q1 i (by omega)] at a1
    rw [(q2 (b - i) (by omega)).2, q1 (b - i) (by omega)] at a2
    refine a1.trans ((q3 i hi).trans ?_)
    have a3 := (a2.symm.mul_left' (c := ε * (p : ℤ) ^ halfWeight b dim i))
    refine a3.of_dvd ?_
    have hd : (p : ℤ) ^ (sharedPrec b dim (fun i => prec.getD i 0) i).toNat ∣
        (p : ℤ) ^ halfWeight b dim i * (p : ℤ) ^ (sharedPrec b dim (fun i => prec.getD i 0) (b - i)).toNat := by
      rw [← pow_add]
      apply pow_dvd_pow
      have e1 : sharedPrec b dim (fun i => prec.getD i 0) i
          = max (prec.getD i 0) (prec.getD (b - i) 0 + halfWeight b dim i) := by
        rw [sharedPrec, if_pos (by omega)]
      have e2 : sharedPrec b dim (fun i => prec.getD i 0) (b - i)
          = max (prec.getD (b - i) 0) (prec.getD i 0 - halfWeight b dim i) := by
        rw [sharedPrec, if_neg (by omega), show b - (b - i) = i by omega]
      rw [e1, e2]
      omega
    rw [mul_assoc]
    exact hd.mul_left _

end Verif
