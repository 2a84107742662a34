import Verif.Lemmas.FrobMain

/-! The Frobenius functions up to the closing assertion. -/

namespace Verif

open Spec MvPolynomial

section

variable {R : Type} [CommRing R] [DecidableEq R]

omit [DecidableEq R] in
theorem expand_isHomogeneous {n e : Nat} {f : MvPolynomial (Fin (n + 1)) R} (h : f.IsHomogeneous e) (p : Nat) :
    (expand p f).IsHomogeneous (p * e) := by
  have := h.aeval (S := R) (fun i : Fin (n + 1) => (X i ^ p : MvPolynomial (Fin (n + 1)) R)) (n := p)
    (fun i => by simpa using (isHomogeneous_X R i).pow p)
  exact this

variable {D : DR R} {p m N : Nat} {L : List IVec} {T : List (MonMap R)} {ei : IVec} {var : FrobVar R}

omit [DecidableEq R] in
/-- The implicit sum of all terms is the series with its factorial. -/
theorem toForms_tail (hD : DROk D) (hp : 1 ≤ p) (hm : 1 ≤ m) (hN : 1 ≤ N)
    (hl : ei.length = D.n + 1) (hs : ei.sum = (m : Int) * D.d - (D.n + 1)) :
    toForms R D.n D.d (tailPoly D p m N ei 0) =
      (((p * (m + N - 1) - 1).factorial : Nat) : R) • frobSeries (DRpoly D) p m N (ev D.n ei) := by
  have hd := hD.hd
  have e1 : tailPoly D p m N ei 0 = ∑ j ∈ Finset.range N, newPoly D p m N ei (m + j) := by
    rw [tailPoly, show m + N - 1 + 1 = m + N by omega, zero_add,
      ← Finset.sum_Ico_consecutive _ hm (show m ≤ m + N by omega), Finset.sum_eq_zero, zero_add,
      Finset.sum_Ico_eq_sum_range, Nat.add_sub_cancel_left]
    intro k hk
    rw [newPoly, if_neg (by have := (Finset.mem_Ico.1 hk).2; omega)]
  rw [e1, map_sum, frobSeries, Finset.smul_sum]
  refine Finset.sum_congr rfl (fun j hj => ?_)
  have hj := Finset.mem_range.1 hj
  rw [newPoly, if_pos (by omega), Nat.add_sub_cancel_left, map_smul]
  have hk : 1 ≤ p * (m + j) := Nat.mul_pos hp (by omega)
  have hle : D.n + 1 ≤ p * (m * D.d) := by
    have h1 : 1 ≤ p * m := Nat.mul_pos hp hm
    calc D.n + 1 ≤ D.d := hd
      _ ≤ (p * m) * D.d := Nat.le_mul_of_pos_left _ h1
      _ = _ := by ring
  have hx : (xpow R (fun i => (p : Int) * (ev D.n ei i + 1) - 1)).IsHomogeneous (p * (m * D.d) - (D.n + 1)) := by
    apply xpow_isHomogeneous
    rw [Finset.sum_sub_distrib, ← Finset.mul_sum, Finset.sum_add_distrib, sum_ev hl, hs, Nat.cast_sub hle]
    simp
  have hf : (expand p (DRpoly D ^ j)).IsHomogeneous (p * (D.d * j)) :=
    expand_isHomogeneous ((DRpoly_isHomogeneous hD).pow j) p
  have hh := hf.mul hx
  rw [toForms_homogeneous (by omega) (k := p * (m + j)) (by
    have : p * (m + j) * D.d = p * (D.d * j) + p * (m * D.d) := by ring
    omega) hh, ← phi_mul (p := p) (show m + j ≤ m + N - 1 by omega)]
  simp only [form, Finsupp.smul_single, smul_smul]
  congr 2
  push_cast
  ring

/-- What is needed about the end of the loops: the closing assertion holds when the last loop goes down to
`e = 1` or the main loop has done so. -/
def EndOK (D : DR R) (p m : Nat) (var : FrobVar R) : Prop := var.full = true ∨ D.n < p ∨ m = 1

theorem frobCore_ok [Nontrivial R] {solve : Solver R} (hsolve : SolverOK solve) (hB : BasisOK solve D)
    (hsz : ∀ l ≤ (D.n + 1) * D.d, (l + D.n).choose D.n < 2 ^ 63)
    (h : FrobIn D p L T ei m N var) (hre : var.reuse = true → D.n / p ≤ m) (hend : EndOK D p m var)
    {coord : Nat} (hc : D.basis[coord]? = some ei) :
    ∃ F, frobCore var solve D p T coord N = .ok F ∧ F.len = D.basis.length ∧
      ∃ c : Nat → R, (∀ r, r < D.basis.length → F.e r = (poleFact D r : R) * c r) ∧
        tailPoly D p m N ei 0 - ∑ r ∈ Finset.range D.basis.length, c r • xpow R (ev D.n (D.basis.getD r []))
          ∈ Ex (DRpoly D) D.d := by
  have hd := h.ok.hd
  have hn1 := h.n1
  have hm : ((sumVec ei + D.n + 1) / D.d).toNat = m := by
    rw [sumVec_eq_sum, h.esum, show (m : Int) * D.d - (D.n + 1) + D.n + 1 = m * D.d by ring,
      Int.mul_ediv_cancel _ (by omega), Int.toNat_natCast]
  have hprod : D.d ≤ D.d * D.n := Nat.le_mul_of_pos_right _ hn1
  obtain ⟨listH, hH, eH, -⟩ := D.list_ok h.ok ((D.d : Int) * D.n - D.n - 1) (by
    have : (D.d : Int) ≤ D.d * D.n := by exact_mod_cast hprod
    omega) (by nlinarith)
  have hlen : listH.length = (D.d * D.n - 1).choose D.n := by
    have e : (D.d : Int) * D.n - D.n - 1 = ((D.d * D.n - D.n - 1 : Nat) : Int) := by
      rw [Nat.sub_sub, Nat.cast_sub (by omega)]; push_cast; ring
    rw [e] at hH
    rw [hH.eq (comps_isTable D.n _), comps_length]
    congr 1; omega
  have hbin : binomial ((D.d : Int) * D.n - 1) D.n = .ok ((listH.length : Nat) : Int) := by
    have e : (D.d : Int) * D.n - 1 = ((D.d * D.n - 1 : Nat) : Int) := by
      rw [Nat.cast_sub (by omega)]; push_cast; ring
    rw [e, binomial_small (by omega) (by
      have := hsz (D.d * D.n - 1 - D.n) (by
        have : (D.n + 1) * D.d = D.d * D.n + D.d := by ring
        omega)
      rw [show D.d * D.n - 1 - D.n + D.n = D.d * D.n - 1 by omega] at this
      exact this), hlen]
  obtain ⟨st, s1, s2, s3, s4⟩ := mainLoop_start h eH
  obtain ⟨LF, M, cM, eM, hM⟩ := finalMatJ_ok hsolve h.ok hB D.n hn1 (le_refl _)
  have hLF : LF = listH := by
    have h1 := hM.list
    rw [show (D.n : Int) * D.d - (D.n + 1) = (D.d : Int) * D.n - D.n - 1 by ring, eH] at h1
    exact (Except.ok.inj h1).symm
  obtain ⟨F, c, f1, f2, f3, f4⟩ := final_apply hM st.last (by rw [hLF, s3])
  rw [hLF] at f4
  have hinit : LastInv D p m N ei (D.n / p) ⟨st.fact, F, ⟨0, fun _ => 0⟩⟩ :=
    ⟨s2, f2, ⟨c, f3, by rw [s4]; exact cls_eq f4⟩, fun _ _ _ => rfl⟩
  obtain ⟨s, t1, t2⟩ : ∃ s, downTo (if var.full then 0 else m - 1) (frobLastPass var solve D p T ei m N)
      (D.n / p - (if var.full then 0 else m - 1)) ⟨st.fact, F, ⟨0, fun _ => 0⟩⟩ = .ok s ∧
      LastInv D p m N ei 0 s := by
    by_cases hz : (if var.full then 0 else m - 1) = 0
    · rw [hz]
      exact lastLoop_ok hsolve hB h hre (D.n / p - 0) _ (le_of_eq (by rw [Nat.sub_zero, Nat.zero_add]))
        (by rw [Nat.sub_zero, Nat.zero_add]; exact hinit)
    · have hn : D.n / p = 0 := by
        rcases hend with h1 | h1 | h1
        · rw [h1] at hz; simp at hz
        · exact Nat.div_eq_of_lt h1
        · rw [h1] at hz; simp at hz
      rw [hn, Nat.zero_sub]
      rw [hn] at hinit
      exact ⟨_, rfl, hinit⟩
  refine ⟨s.F, ?_, t2.len, ?_⟩
  · rw [frobCore, decide_eq_true (show 0 < N from h.N1), check_true, Res.bind_ok, aget, hc, Res.bind_ok,
      if_neg (by have := h.p1; omega)]
    simp only [hm]
    rw [hbin, Res.bind_ok, if_neg (by omega), Int.toNat_natCast, s1, Res.bind_ok, eM, Res.bind_ok, f1, Res.bind_ok, t1,
      Res.bind_ok, decide_eq_true (by rw [t2.fact, factorialR_one, phi_zero]), check_true, Res.bind_ok]
    rfl
  · obtain ⟨c, c1, c2⟩ := t2.rel
    exact ⟨c, c1, cls_mem c2⟩

/-- The relation of forms. -/
theorem frob_toForms {solve : Solver R} (hD : DROk D) (hB : BasisOK solve D) {G : MvPolynomial (Fin (D.n + 1)) R}
    {H c : Nat → R} (hH : ∀ r, r < D.basis.length → H r = (poleFact D r : R) * c r)
    (hrel : G - ∑ r ∈ Finset.range D.basis.length, c r • xpow R (ev D.n (D.basis.getD r []))
        ∈ Ex (DRpoly D) D.d) :
    Cohomologous (DRpoly D) D.d (toForms R D.n D.d G) (basisForm D.n D.d D.basis H) := by
  have hd := hD.hd
  have := toForms_Ex (by omega) _ (DRpoly_isHomogeneous hD) hrel
  rw [map_sub, map_sum] at this
  have h2 : basisForm D.n D.d D.basis H = ∑ r ∈ Finset.range D.basis.length,
      toForms R D.n D.d (c r • xpow R (ev D.n (D.basis.getD r []))) := by
    rw [basisForm]
    refine Finset.sum_congr rfl (fun r hr => ?_)
    have hr := Finset.mem_range.1 hr
    have hmem : D.basis.getD r [] ∈ D.basis := by
      rw [getD_getElem _ _ _ hr]; exact List.getElem_mem hr
    obtain ⟨k', hk1, hk2, ht⟩ := hB.pole _ hmem
    have hle : D.n + 1 ≤ k' * D.d := le_trans (by omega) (Nat.le_mul_of_pos_left _ hk1)
    have hx : (xpow R (ev D.n (D.basis.getD r []))).IsHomogeneous (k' * D.d - (D.n + 1)) := by
      apply xpow_isHomogeneous
      rw [sum_ev_tuple ht, Nat.cast_sub hle]
      push_cast; rfl
    rw [map_smul, toForms_homogeneous (by omega) (k := k') (by omega) hx, hH r hr, poleFact,
      poleOrder_eq (by omega) ht, form, form, Finsupp.smul_single, Finsupp.smul_single, smul_smul,
      mul_comm]
  rw [Cohomologous, h2]
  exact this

end

end Verif
