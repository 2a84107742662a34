import Verif.Lemmas.FrobCore
import Verif.Lemmas.FrobScale

/-! The two variants meet the assumptions of the loops. -/

namespace Verif

open Spec MvPolynomial

theorem djm_natAbs (m N j : Nat) : (djm m N j).natAbs = ∑ i ∈ Finset.Ico j N, dbin m j i := by
  rw [djm, ← Nat.cast_sum, Int.natAbs_mul, Int.natAbs_pow, Int.natAbs_neg, Int.natAbs_one, one_pow, one_mul,
    Int.natAbs_natCast]
  rfl

section

variable {R : Type} [CommRing R] [DecidableEq R]

theorem varP_ok {solve : Solver R} {p' n d : Nat} {f : MonMap R} {D : DR R} (hC : Constructed solve p' f n d D)
    {L : List IVec} (hL : IsTable D.n ((D.d : Int) * D.n - D.n) L) (hn : 1 ≤ D.n) (p : Nat) (kind : LoopKind)
    {m N : Nat} (hm : 1 ≤ m) (hb : ∀ j, j < N → (djm m N j).natAbs < 2 ^ 63) :
    VarOK D p L m N (varP solve D p kind) where
  term := termP_ok hC hL hn p kind
  coef _ _ _ := rfl
  skip _ h := by cases h
  djm j hj := djm64_ok hm (by rw [← djm_natAbs]; exact hb j hj)
  djmLast j hj _ := djm64_ok hm (by rw [← djm_natAbs]; exact hb j hj)

end

section

variable {q : Nat} [NeZero q]

theorem varZ_ok {solve : Solver (ZMod q)} {p' n d : Nat} {f : MonMap (ZMod q)} {D : DR (ZMod q)}
    (hC : Constructed solve p' f n d D)
    {L : List IVec} (hL : IsTable D.n ((D.d : Int) * D.n - D.n) L) (hn : 1 ≤ D.n) (p : Nat) (kind : LoopKind)
    {m N : Nat} (hm : 1 ≤ m) (hb : ∀ i j, j ≤ i → i < N → i.choose j < 2 ^ 63)
    (hb' : ∀ j, j < N → m + j ≤ D.n / p → (djm m N j).natAbs < 2 ^ 63) :
    VarOK D p L m N (varZ solve D p kind) where
  term := termZ_ok hC hL hn p kind
  coef Dj a fact := by
    show ((Dj * liftZ a * liftZ fact : Int) : ZMod q) = _
    push_cast
    rw [liftZ_cast, liftZ_cast]
  skip G h i hi := by
    have h' : CVec.isZero G = true := h
    rw [CVec.isZero, List.all_eq_true] at h'
    exact of_decide_eq_true (h' i (List.mem_range.2 hi))
  djm j hj := djmZZ_ok hm (fun i h1 h2 => hb i j h1 h2)
  djmLast j hj h := djmMix_ok hm (fun i h1 h2 => by
    have h3 := hb' j hj h
    rw [djm_natAbs] at h3
    exact lt_of_le_of_lt (Finset.single_le_sum (f := dbin m j) (fun _ _ => Nat.zero_le _)
      (Finset.mem_Ico.2 ⟨h1, h2⟩)) h3)

end

section

variable {R : Type} [CommRing R] [DecidableEq R]

theorem fpowCalls_ok {n d : Nat} {f : MonMap R} (hf : WFPoly (n + 1) f) (hd : ∀ e ∈ f, deg e.1 = d)
    (powers : List Int) : ∀ {T : List (MonMap R)}, TableOK n d f T →
    ∃ S, powers.foldlM (computeFpow f) T = .ok (T ++ S) ∧ TableOK n d f (T ++ S) ∧
      (∀ q ∈ powers, q < (T ++ S).length) ∧
      ((T ++ S).length : Int) = powers.foldl (fun a q => max a (q + 1)) (T.length : Int) := by
  induction powers with
  | nil => intro T hT; exact ⟨[], by rw [List.append_nil]; exact ⟨rfl, hT, by simp, rfl⟩⟩
  | cons q powers ih =>
    intro T hT
    obtain ⟨S1, a1, a2, a3, a4⟩ := computeFpow_ok hf hd hT q
    obtain ⟨S2, b1, b2, b3, b4⟩ := ih a2
    refine ⟨S1 ++ S2, ?_⟩
    rw [← List.append_assoc]
    refine ⟨?_, b2, ?_, ?_⟩
    · rw [List.foldlM_cons, a1, Res.bind_ok, b1]
    · intro q' hq
      rcases List.mem_cons.1 hq with rfl | hq
      · exact lt_of_lt_of_le a3 (by rw [List.length_append (as := T ++ S1)]; omega)
      · exact b3 q' hq
    · rw [b4, List.foldl_cons, a4]

/-- The pole order of a basis element. -/
theorem basis_pole {solve : Solver R} {D : DR R} (hB : BasisOK solve D) (hd : 0 < D.d) {coord : Nat} {ei : IVec}
    (hc : D.basis[coord]? = some ei) : 1 ≤ poleOrder D.n D.d ei ∧ poleOrder D.n D.d ei ≤ D.n ∧
      IsTuple (D.n + 1) ((poleOrder D.n D.d ei : Int) * D.d - (D.n + 1)) ei := by
  obtain ⟨k, k1, k2, k3⟩ := hB.pole ei (List.mem_of_getElem? hc)
  rw [poleOrder_eq hd k3]
  exact ⟨k1, k2, k3⟩

/-- The sum of the terms is cohomologous to the vector computed by the loops. -/
theorem frobCore_class [Nontrivial R] {solve : Solver R} {p' p n d : Nat} {f : MonMap R} {D : DR R}
    (hC : Constructed solve p' f n d D) (hn : 1 ≤ n) (hp : 1 ≤ p) {var : FrobVar R} {coord N : Nat} {ei : IVec}
    (hc : D.basis[coord]? = some ei) (hN : 1 ≤ N)
    (hv : ∀ L, IsTable D.n ((D.d : Int) * D.n - D.n) L → VarOK D p L (poleOrder n d ei) N var)
    (hhigh : n / p ≤ poleOrder n d ei + N - 1) (hre : var.reuse = true → n / p ≤ poleOrder n d ei)
    (hend : var.full = true ∨ n < p ∨ poleOrder n d ei = 1)
    {T : List (MonMap R)} (hT : TableOK n d f T) (hTl : N ≤ T.length) :
    ∃ F, frobCore var solve D p T coord N = .ok F ∧ F.len = D.basis.length ∧
      (∃ c : Nat → R, (∀ r, r < D.basis.length → F.e r = (poleFact D r : R) * c r) ∧
        tailPoly D p (poleOrder n d ei) N ei 0 -
          ∑ r ∈ Finset.range D.basis.length, c r • xpow R (ev D.n (D.basis.getD r [])) ∈ Ex (DRpoly D) D.d) ∧
      Cohomologous (toPoly (n + 1) f) d
        ((((p * (poleOrder n d ei + N - 1) - 1).factorial : Nat) : R) •
          frobSeries (toPoly (n + 1) f) p (poleOrder n d ei) N (ev n ei))
        (basisForm n d D.basis F.e) := by
  obtain ⟨rfl, rfl, hI⟩ := hC.init
  have hd := hI.ok.hd
  have hf : DRpoly D = toPoly (D.n + 1) f := by rw [DRpoly, hI.f_eq]
  obtain ⟨m1, m2, m3⟩ := basis_pole hI.basis (by omega) hc
  obtain ⟨L, hL, -, -⟩ := D.list_ok hI.ok ((D.d : Int) * D.n - D.n) (by nlinarith) (by nlinarith)
  have hle : D.n ≤ D.d * D.n := Nat.le_mul_of_pos_left _ (by omega)
  have er : ((D.d * D.n - D.n : Nat) : Int) = (D.d : Int) * D.n - D.n := by rw [Nat.cast_sub hle]; push_cast; ring
  have hin : FrobIn D p L T ei (poleOrder D.n D.d ei) N var :=
    { ok := hI.ok, n1 := hn, p1 := hp, tab := by rw [er]; exact hL, var_ok := hv L hL,
      table := by rw [hI.f_eq]; exact hT, tlen := hTl, N1 := hN, m1 := m1, elen := m3.1, enn := m3.2.1,
      esum := m3.2.2, high := hhigh }
  obtain ⟨F, a1, a2, c, a3, a4⟩ := frobCore_ok hC.solver hI.basis hC.size hin hre hend hc
  refine ⟨F, a1, a2, ⟨c, a3, a4⟩, ?_⟩
  have h5 := frob_toForms hI.ok hI.basis a3 a4
  rw [toForms_tail hI.ok hp m1 hN m3.1 m3.2.2, hf] at h5
  exact h5

end

end Verif
