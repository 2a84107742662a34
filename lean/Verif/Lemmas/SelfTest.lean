import Verif.Model.SelfTest
import Verif.Lemmas.DeRhamMono
import Verif.Lemmas.FrobFun
import Verif.Lemmas.PathIndep
import Mathlib.RingTheory.MvPolynomial.EulerIdentity

/-! Lemmas for C63: multiplying by `f` in the module of forms. -/

namespace Verif

open Spec MvPolynomial

section

variable {R : Type} [CommRing R] {n d : ℕ} {f : MvPolynomial (Fin (n + 1)) R}

theorem mul_f_mono (hf : f.IsHomogeneous d) (a : Fin (n + 1) → ℤ) (ha : ∀ i, 0 ≤ a i) (m : ℕ) (hm : 1 ≤ m)
    (hs : ∑ i, a i + n + 1 = m * d) :
    (d : R) • (f * xpow R a - (m : R) • xpow R a) ∈ Ex f d := by
  have hX : ∀ i, xpow R (a + Pi.single i 1) = X i * xpow R a := by
    intro i
    have h1 : ∀ j, (0 : ℤ) ≤ (Pi.single i 1 : Fin (n + 1) → ℤ) j := by
      intro j
      by_cases h : j = i
      · subst h; simp
      · simp [h]
    rw [← xpow_mul ha h1, mul_comm]
    congr 1
    rw [xpow_of_nonneg h1, X]
    refine congrArg (fun s => monomial s 1) ?_
    ext j
    by_cases h : j = i
    · subst h; simp
    · simp [h]
  have hmem : ∑ i, (xpow R (a + Pi.single i 1) * pderiv i f -
      (((a + Pi.single i 1 : Fin (n + 1) → ℤ) i : ℤ) : R) • xpow R (a + Pi.single i 1 - Pi.single i 1)) ∈ Ex f d := by
    refine Submodule.sum_mem _ (fun i _ => Ex_mem f d m i _ hm ?_ ?_)
    · intro j
      by_cases h : j = i
      · subst h; have := ha j; simp; omega
      · simp [h, ha j]
    · simp only [Pi.add_apply, Finset.sum_add_distrib]
      rw [Finset.sum_pi_single']
      simp
      omega
  have heq : ∑ i, (xpow R (a + Pi.single i 1) * pderiv i f -
      (((a + Pi.single i 1 : Fin (n + 1) → ℤ) i : ℤ) : R) • xpow R (a + Pi.single i 1 - Pi.single i 1)) =
      (d : R) • (f * xpow R a - (m : R) • xpow R a) := by
    rw [Finset.sum_sub_distrib]
    have e1 : ∑ i, xpow R (a + Pi.single i 1) * pderiv i f = (d : R) • (f * xpow R a) := by
      have := hf.sum_X_mul_pderiv
      rw [← smul_mul_assoc, Nat.cast_smul_eq_nsmul, ← this, Finset.sum_mul]
      refine Finset.sum_congr rfl (fun i _ => ?_)
      rw [hX]; ring
    have e2 : ∑ i, (((a + Pi.single i 1 : Fin (n + 1) → ℤ) i : ℤ) : R) • xpow R (a + Pi.single i 1 - Pi.single i 1) =
        (d : R) • (m : R) • xpow R a := by
      have : ∀ i : Fin (n + 1), a + Pi.single i 1 - Pi.single i 1 = a := fun i => by simp
      simp only [this]
      rw [← Finset.sum_smul, smul_smul]
      congr 1
      rw [← Int.cast_sum]
      have : ∑ i, (a + Pi.single i 1 : Fin (n + 1) → ℤ) i = (d * m : ℕ) := by
        simp only [Pi.add_apply, Pi.single_eq_same, Finset.sum_add_distrib]
        simp
        push_cast
        linarith
      rw [this]
      push_cast
      ring
    rw [e1, e2, smul_sub]
  rw [← heq]
  exact hmem

theorem mul_f (hf : f.IsHomogeneous d) (hd : IsUnit (d : R)) {P : MvPolynomial (Fin (n + 1)) R} {e : ℕ}
    (hP : P.IsHomogeneous e) (m : ℕ) (hm : 1 ≤ m) (hs : e + n + 1 = m * d) : f * P - (m : R) • P ∈ Ex f d := by
  obtain ⟨c, hc⟩ := hd.exists_left_inv
  have hmono : ∀ a ∈ P.support, f * monomial a (coeff a P) - (m : R) • monomial a (coeff a P) ∈ Ex f d := by
    intro a ha
    have hdeg : a.degree = e := hP.degree_eq_sum_deg_support ha |>.symm
    have hx : (monomial a 1 : MvPolynomial (Fin (n + 1)) R) = xpow R (fun i => (a i : ℤ)) := by
      rw [xpow_of_nonneg (by simp)]
      congr 1
      ext i; simp
    have h1 := mul_f_mono hf (fun i => (a i : ℤ)) (by simp) m hm (by
      rw [Finsupp.degree_eq_sum] at hdeg
      rw [← Nat.cast_sum, hdeg]; exact_mod_cast hs)
    have h2 := Submodule.smul_mem _ (coeff a P * c) h1
    rw [smul_smul, mul_assoc, hc, mul_one, ← hx] at h2
    have : (monomial a (coeff a P) : MvPolynomial (Fin (n + 1)) R) = coeff a P • monomial a 1 := by
      rw [smul_monomial, smul_eq_mul, mul_one]
    rw [this, mul_smul_comm, smul_comm, ← smul_sub]
    exact h2
  have : f * P - (m : R) • P = ∑ a ∈ P.support, (f * monomial a (coeff a P) - (m : R) • monomial a (coeff a P)) := by
    rw [Finset.sum_sub_distrib, ← Finset.mul_sum, ← Finset.smul_sum, ← P.as_sum]
  rw [this]
  exact Submodule.sum_mem _ hmono

theorem mul_f_pow (hf : f.IsHomogeneous d) (hd : IsUnit (d : R)) {P : MvPolynomial (Fin (n + 1)) R} {e : ℕ}
    (hP : P.IsHomogeneous e) (k : ℕ) (hk : 1 ≤ k) (hs : e + n + 1 = k * d) (i : ℕ) :
    f ^ i * P - (k.ascFactorial i : R) • P ∈ Ex f d := by
  induction i with
  | zero => simp
  | succ i ih =>
    have h1 := mul_f hf hd ((hf.pow i).mul hP) (k + i) (by omega) (by rw [add_mul, ← hs]; ring)
    have h2 := Submodule.smul_mem _ ((k + i : ℕ) : R) ih
    have h3 := Submodule.add_mem _ h1 h2
    have : f ^ (i + 1) * P - (k.ascFactorial (i + 1) : R) • P =
        f * (f ^ i * P) - ((k + i : ℕ) : R) • (f ^ i * P) +
          ((k + i : ℕ) : R) • (f ^ i * P - (k.ascFactorial i : R) • P) := by
      rw [Nat.ascFactorial_succ, smul_sub, smul_smul]
      push_cast
      ring
    rw [this]
    exact h3

end

/-! ### The loops -/

theorem factI64_eq (m : Nat) (hm : 1 ≤ m) :
    factI64 m = if m ≤ 21 then .ok ((m - 1).factorial : Int) else .error .ub := by
  have h : ∀ k : Nat, forRange k (1 : Int) (fun k fact => i64 (fact * ((k : Int) + 1))) =
      if k ≤ 20 then .ok (k.factorial : Int) else .error .ub := by
    intro k
    induction k with
    | zero => rfl
    | succ k ih =>
      rw [forRange, ih]
      by_cases hk : k + 1 ≤ 20
      · rw [if_pos (by omega), if_pos hk, Res.bind_ok, i64, if_pos]
        · rw [Nat.factorial_succ]; push_cast; congr 1; ring
        · have h1 : ((k : Int).toNat + 1).factorial ≤ (20).factorial := Nat.factorial_le (by omega)
          have h2 : (k.factorial : Int) * ((k : Int) + 1) = ((k + 1).factorial : Nat) := by
            rw [Nat.factorial_succ]; push_cast; ring
          rw [h2]
          have h3 : (20).factorial < 2 ^ 63 := by decide
          have h4 : (k + 1).factorial < 2 ^ 63 := lt_of_le_of_lt (by simpa using h1) h3
          constructor
          · have : (0 : Int) ≤ ((k + 1).factorial : Nat) := by positivity
            omega
          · exact_mod_cast h4
      · rw [if_neg hk]
        by_cases hk' : k ≤ 20
        · have : k = 20 := by omega
          subst this
          rw [if_pos (by omega), Res.bind_ok]
          decide
        · rw [if_neg hk', Res.bind_error]
  rw [factI64, show ((m : Int) - 1).toNat = m - 1 by omega, h]
  by_cases h21 : m ≤ 21
  · rw [if_pos h21, if_pos (by omega)]
  · rw [if_neg h21, if_neg (by omega)]

/-- A loop whose passes return `true` as long as `P` holds and are undefined otherwise. -/
theorem allRange_eq (P : Nat → Prop) [DecidablePred P] (f : Nat → Res Bool) (cnt : Nat) : ∀ i,
    (∀ j, i ≤ j → j < i + cnt → f j = if P j then .ok true else .error .ub) →
    allRange f cnt i = if (∀ j, i ≤ j → j < i + cnt → P j) then .ok true else .error .ub := by
  induction cnt with
  | zero => intro i _; rw [if_pos (fun j h1 h2 => by omega)]; rfl
  | succ cnt ih =>
    intro i h
    rw [allRange, h i (le_refl _) (by omega)]
    by_cases hP : P i
    · rw [if_pos hP, Res.bind_ok, if_pos rfl, ih (i + 1) (fun j h1 h2 => h j (by omega) (by omega))]
      refine if_congr ⟨fun h' j h1 h2 => ?_, fun h' j h1 h2 => h' j (by omega) (by omega)⟩ rfl rfl
      by_cases hj : j = i
      · subst hj; exact hP
      · exact h' j (by omega) (by omega)
    · rw [if_neg hP, Res.bind_error, if_neg (fun h' => hP (h' i (le_refl _) (by omega)))]

section

variable {R : Type} [CommRing R]

/-- What the test uses about the function tested. -/
def ToBasisOK (D : DR R) (toBasis : IVec → Res (CVec R)) : Prop :=
  ∀ u : IVec, u.length = D.n + 1 → (∀ x ∈ u, 0 < x) → ∀ m : Nat, u.sum = m * D.d →
    ∃ H, ∃ c : Nat → R, toBasis u = .ok H ∧ H.len = D.basis.length ∧
      (∀ r, r < D.basis.length → H.e r = (poleFact D r : R) * c r) ∧
      xpow R (fun i => ev D.n u i - 1)
        - ∑ r ∈ Finset.range D.basis.length, c r • xpow R (ev D.n (D.basis.getD r [])) ∈ Ex (DRpoly D) D.d

theorem selfTestSum_ok {D : DR R} {toBasis : IVec → Res (CVec R)} (hT : ToBasisOK D toBasis) {b : IVec} {k i : Nat}
    (hb : IsTuple (D.n + 1) ((k : Int) * D.d - (D.n + 1)) b) :
    ∀ (fp : MonMap R), (∀ e ∈ fp, (e.1.length = D.n + 1 ∧ NonNeg e.1) ∧ deg e.1 = (i : Int) * D.d) →
    ∀ (v : CVec R) (c0 : Nat → R), v.len = D.basis.length →
      (∀ r, r < D.basis.length → v.e r = (poleFact D r : R) * c0 r) →
    ∃ w, ∃ c : Nat → R, fp.foldlM (fun v e => do
        let u ← addVec e.1 b
        let h ← toBasis (u.map (fun x => x + 1))
        v.add (CVec.mk' h.len (fun k => e.2 * h.e k))) v = .ok w ∧ w.len = D.basis.length ∧
      (∀ r, r < D.basis.length → w.e r = (poleFact D r : R) * c r) ∧
      toPoly (D.n + 1) fp * xpow R (ev D.n b)
        - ∑ r ∈ Finset.range D.basis.length, (c r - c0 r) • xpow R (ev D.n (D.basis.getD r [])) ∈ Ex (DRpoly D) D.d := by
  intro fp
  induction fp with
  | nil =>
    intro _ v c0 h1 h2
    refine ⟨v, c0, rfl, h1, h2, ?_⟩
    simp
  | cons e fp ih =>
    intro hfp v c0 h1 h2
    obtain ⟨⟨el, e0⟩, ed⟩ := hfp e (by simp)
    have hadd : addVec e.1 b = .ok (List.zipWith (· + ·) e.1 b) := addVec_ok (by rw [el, hb.1])
    obtain ⟨u, hu⟩ : ∃ u : IVec, u = (List.zipWith (· + ·) e.1 b).map (fun x => x + 1) := ⟨_, rfl⟩
    have hzl : (List.zipWith (· + ·) e.1 b).length = D.n + 1 := by simp [el, hb.1]
    have hul : u.length = D.n + 1 := by rw [hu, List.length_map, hzl]
    have hev : ∀ j, ev D.n u j = ev D.n e.1 j + ev D.n b j + 1 := by
      intro j
      have hj : j.val < (List.zipWith (· + ·) e.1 b).length := by rw [hzl]; exact j.isLt
      have h3 : ev D.n u j = ev D.n (List.zipWith (· + ·) e.1 b) j + 1 := by
        rw [hu, ev, ev, getD_getElem _ _ _ (by rw [List.length_map]; exact hj), getD_getElem _ _ _ hj, List.getElem_map]
      rw [h3, ev_add (by rw [el, hb.1])]
      rfl
    have hpos : ∀ x ∈ u, 0 < x := by
      intro x hx
      obtain ⟨j, hj, rfl⟩ := List.getElem_of_mem hx
      have h3 := hev ⟨j, by omega⟩
      have h4 := nonNeg_getD e0 j
      have h5 := nonNeg_getD hb.2.1 j
      simp only [ev] at h3
      rw [getD_getElem _ _ _ hj] at h3
      omega
    have hsum : u.sum = ((i + k : Nat) : Int) * D.d := by
      rw [← sum_ev hul]
      simp only [hev, Finset.sum_add_distrib]
      rw [sum_ev_tuple hb, sum_ev el]
      have : e.1.sum = (i : Int) * D.d := ed
      rw [this]
      simp
      ring
    obtain ⟨H, cH, a1, a2, a3, a4⟩ := hT u hul hpos (i + k) hsum
    obtain ⟨v1, hv1⟩ : ∃ v1 : CVec R, v1 = CVec.mk' v.len (fun r => v.e r + (CVec.mk' H.len (fun r => e.2 * H.e r)).e r) :=
      ⟨_, rfl⟩
    have hstep : (do
        let u ← addVec e.1 b
        let h ← toBasis (u.map (fun x => x + 1))
        v.add (CVec.mk' h.len (fun k => e.2 * h.e k))) = .ok v1 := by
      rw [hadd, Res.bind_ok, ← hu, a1, Res.bind_ok, CVec.add, if_pos (by rw [h1]; exact a2.symm), hv1]
    have hl1 : v1.len = D.basis.length := by rw [hv1]; exact h1
    have he1 : ∀ r, r < D.basis.length → v1.e r = (poleFact D r : R) * (c0 r + e.2 * cH r) := by
      intro r hr
      rw [hv1]
      show (if r < v.len then v.e r + (if r < H.len then e.2 * H.e r else 0) else 0) = _
      rw [if_pos (by omega), if_pos (by omega), h2 r hr, a3 r hr]
      ring
    obtain ⟨w, c, b1, b2, b3, b4⟩ := ih (fun e' he' => hfp e' (List.mem_cons_of_mem _ he')) v1 _ hl1 he1
    refine ⟨w, c, ?_, b2, b3, ?_⟩
    · rw [List.foldlM_cons, hstep, Res.bind_ok]
      exact b1
    · have h5 := Submodule.add_mem _ b4 (Submodule.smul_mem _ e.2 a4)
      have hx : (fun j => ev D.n u j - 1) = ev D.n e.1 + ev D.n b := by
        funext j; rw [hev]; simp
      have hm : (monomial (expo (D.n + 1) e.1) e.2 : MvPolynomial (Fin (D.n + 1)) R) = e.2 • xpow R (ev D.n e.1) := by
        rw [xpow_ev e0, smul_monomial, smul_eq_mul, mul_one]
      have : toPoly (D.n + 1) (e :: fp) * xpow R (ev D.n b)
          - ∑ r ∈ Finset.range D.basis.length, (c r - c0 r) • xpow R (ev D.n (D.basis.getD r [])) =
          toPoly (D.n + 1) fp * xpow R (ev D.n b)
          - ∑ r ∈ Finset.range D.basis.length, (c r - (c0 r + e.2 * cH r)) • xpow R (ev D.n (D.basis.getD r [])) +
          e.2 • (xpow R (fun i => ev D.n u i - 1)
            - ∑ r ∈ Finset.range D.basis.length, cH r • xpow R (ev D.n (D.basis.getD r []))) := by
        rw [toPoly_cons, hm, hx, ← xpow_mul (a := ev D.n e.1) (b := ev D.n b) (fun j => nonNeg_getD e0 j) (fun j => nonNeg_getD hb.2.1 j), smul_sub,
          Finset.smul_sum]
        simp only [sub_smul, add_smul, Finset.sum_sub_distrib, Finset.sum_add_distrib, mul_smul, smul_mul_assoc, add_mul]
        ring
      rw [this]
      exact h5

/-- One pass of the test. -/
theorem selfTestOne_eq [DecidableEq R] {D : DR R} {toBasis : IVec → Res (CVec R)} (hT : ToBasisOK D toBasis) (hD : DROk D)
    (hdu : IsUnit (D.d : R))
    (hpole : ∀ t ∈ D.basis, ∃ k : Nat, 1 ≤ k ∧ k ≤ D.n ∧ IsTuple (D.n + 1) ((k : Int) * D.d - (D.n + 1)) t)
    (hind : ∀ c : Nat → R, ∑ r ∈ Finset.range D.basis.length, c r • xpow R (ev D.n (D.basis.getD r []))
      ∈ Ex (DRpoly D) D.d → ∀ r, r < D.basis.length → c r = 0)
    {T : List (MonMap R)} (hTab : TableOK D.n D.d D.f T) {i j : Nat} (hi : i < T.length) (hj : j < D.basis.length) :
    selfTestOne toBasis D T i j =
      if poleOrder D.n D.d (D.basis.getD j []) + i ≤ 21 then .ok true else .error .ub := by
  have hd := hD.hd
  have hb0 : D.basis.getD j [] = D.basis[j] := getD_getElem _ _ _ hj
  obtain ⟨k, hk1, hk2, hb⟩ := hpole D.basis[j] (List.getElem_mem hj)
  have hpo : poleOrder D.n D.d (D.basis.getD j []) = k := by rw [hb0]; exact poleOrder_eq (by omega) hb
  have hm : (sumVec D.basis[j] + ((D.n : Int) + 1)) / D.d + i = ((k + i : Nat) : Int) := by
    have h1 : sumVec D.basis[j] = (k : Int) * D.d - (D.n + 1) := by rw [sumVec_eq_sum]; exact hb.2.2
    rw [h1, show (k : Int) * D.d - (D.n + 1) + ((D.n : Int) + 1) = k * D.d by ring, Int.mul_ediv_cancel _ (by omega)]
    push_cast
    rfl
  rw [hpo, selfTestOne, aget_of_lt _ _ hj, Res.bind_ok]
  simp only
  rw [hm, factI64_eq (k + i) (by omega)]
  by_cases h21 : k + i ≤ 21
  swap
  · rw [if_neg h21, if_neg h21, Res.bind_error]
  rw [if_pos h21, if_pos h21, Res.bind_ok, aget_of_lt _ _ hi, Res.bind_ok]
  obtain ⟨t1, t2, t3⟩ := hTab.entry i T[i] (List.getElem?_eq_getElem hi)
  obtain ⟨w, c, e1, e2, e3, e4⟩ := selfTestSum_ok hT hb T[i] (fun e he => ⟨t1.1 e he, t3 e he⟩)
    (CVec.mk' D.basis.length (fun _ => 0)) (fun _ => 0) rfl (fun r hr => by
      show (if r < D.basis.length then (0 : R) else 0) = _
      simp)
  rw [selfTestSum, e1, Res.bind_ok]
  have hfhom := DRpoly_isHomogeneous hD
  have hbs : (∑ l, ev D.n D.basis[j] l : ℤ) = ((k * D.d - (D.n + 1) : ℕ) : ℤ) := by
    rw [sum_ev_tuple hb, Nat.cast_sub]
    · push_cast; ring
    · have : D.d ≤ k * D.d := Nat.le_mul_of_pos_left _ (by omega)
      omega
  have hge : D.n + 1 ≤ k * D.d := by
    have : D.d ≤ k * D.d := Nat.le_mul_of_pos_left _ (by omega)
    omega
  have h5 := mul_f_pow hfhom hdu (xpow_isHomogeneous (R := R) (ev D.n D.basis[j]) _ hbs) k hk1 (by omega) i
  have hfp : toPoly (D.n + 1) T[i] = DRpoly D ^ i := t2
  rw [hfp] at e4
  have h6 := Submodule.sub_mem _ h5 e4
  have h7 := hind (fun r => c r - if r = j then (k.ascFactorial i : R) else 0) (by
    have : ∑ r ∈ Finset.range D.basis.length, (c r - if r = j then (k.ascFactorial i : R) else 0) •
        xpow R (ev D.n (D.basis.getD r [])) =
        DRpoly D ^ i * xpow R (ev D.n D.basis[j]) - (k.ascFactorial i : R) • xpow R (ev D.n D.basis[j]) -
        (DRpoly D ^ i * xpow R (ev D.n D.basis[j]) -
          ∑ r ∈ Finset.range D.basis.length, (c r - 0) • xpow R (ev D.n (D.basis.getD r []))) := by
      simp only [sub_smul, Finset.sum_sub_distrib, ite_smul, zero_smul, Finset.sum_ite_eq', Finset.mem_range, hj, if_true, hb0,
        Finset.sum_const_zero]
      ring
    rw [this]
    exact h6)
  congr 1
  rw [List.all_eq_true]
  intro r hr
  have hr := List.mem_range.1 hr
  have h8 := sub_eq_zero.1 (h7 r hr)
  by_cases hrj : r = j
  · subst hrj
    rw [if_pos rfl] at h8 ⊢
    refine decide_eq_true ?_
    rw [e3 r hr, h8, poleFact, hpo, ← Nat.cast_mul, Int.cast_natCast]
    congr 1
    obtain ⟨k', rfl⟩ : ∃ k', k = k' + 1 := ⟨k - 1, by omega⟩
    rw [Nat.add_sub_cancel, Nat.factorial_mul_ascFactorial]
    congr 1
    omega
  · rw [if_neg hrj] at h8 ⊢
    refine decide_eq_true ?_
    rw [e3 r hr, h8, mul_zero]

/-- The whole test. -/
theorem selfTest_eq [DecidableEq R] {D : DR R} {toBasis : IVec → Res (CVec R)} (hT : ToBasisOK D toBasis) (hD : DROk D)
    (hdu : IsUnit (D.d : R))
    (hpole : ∀ t ∈ D.basis, ∃ k : Nat, 1 ≤ k ∧ k ≤ D.n ∧ IsTuple (D.n + 1) ((k : Int) * D.d - (D.n + 1)) t)
    (hind : ∀ c : Nat → R, ∑ r ∈ Finset.range D.basis.length, c r • xpow R (ev D.n (D.basis.getD r []))
      ∈ Ex (DRpoly D) D.d → ∀ r, r < D.basis.length → c r = 0) (K : Nat) :
    selfTest toBasis D K =
      if (∀ t ∈ D.basis, poleOrder D.n D.d t + K ≤ 21) then .ok true else .error .ub := by
  obtain ⟨S, h1, h2, h3⟩ := fpowLoop_ok (n := D.n) (d := D.d) hD.f_wf hD.f_hom K (fpowStart D.n) (tableOK_start _ _ _)
  have hlen : (fpowStart D.n ++ S : List (MonMap R)).length = K + 1 := by
    rw [List.length_append, h2]; simp [fpowStart]; omega
  rw [selfTest, h1, Res.bind_ok]
  rw [allRange_eq (fun i => ∀ j, 0 ≤ j → j < 0 + D.basis.length → poleOrder D.n D.d (D.basis.getD j []) + i ≤ 21) _ (K + 1) 0]
  · refine if_congr ⟨fun h t ht => ?_, fun h i _ hi j _ hj => ?_⟩ rfl rfl
    · obtain ⟨j, hj, rfl⟩ := List.getElem_of_mem ht
      have := h K (by omega) (by omega) j (by omega) (by omega)
      rwa [getD_getElem _ _ _ hj] at this
    · have hj' : j < D.basis.length := by omega
      have := h D.basis[j] (List.getElem_mem hj')
      rw [getD_getElem _ _ _ hj']
      omega
  · intro i _ hi
    exact allRange_eq (fun j => poleOrder D.n D.d (D.basis.getD j []) + i ≤ 21) _ D.basis.length 0 (fun j _ hj =>
      selfTestOne_eq hT hD hdu hpole hind h3 (by omega) (by omega))

end

end Verif
