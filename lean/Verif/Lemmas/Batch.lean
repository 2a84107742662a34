import Verif.Spec.Batch
import Verif.Lemmas.DeRhamInit

/-! Lemmas on the batched reductions and the versions over `ZZ`. -/

namespace Verif

open Spec

section generic

variable {R : Type} [CommRing R]

/-- All matrices are `l x l`. -/
def SquareFam (l : Nat) (Ms : Nat → CMat R) : Prop := ∀ i, (Ms i).rows = l ∧ (Ms i).cols = l

theorem mulVec_eq {M : CMat R} {G : CVec R} (h : M.cols = G.len) :
    M.mulVec G = .ok (CVec.mk' M.rows (fun i => ∑ k ∈ Finset.range M.cols, M.e i k * G.e k)) := by
  rw [CMat.mulVec, if_pos h]
  simp only [sumLoop_eq_sum]

theorem CVec.mk'_congr {l : Nat} {f g : Nat → R} (h : ∀ i, i < l → f i = g i) : CVec.mk' l f = CVec.mk' l g := by
  unfold CVec.mk'
  congr 1
  funext i
  by_cases hi : i < l
  · rw [if_pos hi, if_pos hi, h i hi]
  · rw [if_neg hi, if_neg hi]

theorem evalRed_e {l : Nat} {Ms : Nat → CMat R} (hs : SquareFam l Ms) (n : Nat) (u : IVec) {r c : Nat}
    (hr : r < l) (hc : c < l) : (evalRed n Ms u).e r c
      = (Ms 0).e r c + ∑ i ∈ Finset.range (n + 1), ((u.getD i 0 : Int) : R) * (Ms (i + 1)).e r c := by
  simp only [evalRed, CMat.mk', (hs 0).1, (hs 0).2, hr, hc, and_self, if_true, sumLoop_eq_sum]

theorem reduceWith_eq {l : Nat} {Ms : Nat → CMat R} (hs : SquareFam l Ms) (n : Nat) (u : IVec) {G : CVec R}
    (hG : G.len = l) : reduceWith n Ms u G = (evalRed n Ms u).mulVec G := by
  have hr : (evalRed n Ms u).rows = l := (hs 0).1
  have hc : (evalRed n Ms u).cols = l := (hs 0).2
  rw [reduceWith, mulVec_eq (by rw [(hs 0).2, hG]), Res.bind_ok, mulVec_eq (by rw [hc, hG])]
  obtain ⟨s', e, hl, he⟩ := forRange_inv (n := n + 1)
    (s := CVec.mk' (Ms 0).rows (fun i => ∑ k ∈ Finset.range (Ms 0).cols, (Ms 0).e i k * G.e k))
    (f := fun i res => do
      let Gi ← (Ms (i + 1)).mulVec G
      if Gi.len = res.len then
        pure (CVec.mk' res.len (fun r => res.e r + ((u.getD i 0 : Int) : R) * Gi.e r))
      else .error .abort)
    (fun i res => res.len = l ∧ res = CVec.mk' l (fun r => ∑ k ∈ Finset.range l, (Ms 0).e r k * G.e k
      + ∑ j ∈ Finset.range i, ((u.getD j 0 : Int) : R) * ∑ k ∈ Finset.range l, (Ms (j + 1)).e r k * G.e k))
    (by refine ⟨(hs 0).1, ?_⟩
        rw [(hs 0).1, (hs 0).2]
        exact CVec.mk'_congr (fun r _ => by simp))
    (by
      rintro i res - ⟨h1, h2⟩
      have e1 := mulVec_eq (M := Ms (i + 1)) (G := G) (by rw [(hs _).2, hG])
      rw [(hs (i + 1)).1, (hs (i + 1)).2] at e1
      refine ⟨_, by
        rw [e1, Res.bind_ok, if_pos (by rw [h1]; rfl), Res.pure_eq], ?_, ?_⟩
      · rw [h1]; rfl
      · rw [h1]
        refine CVec.mk'_congr (fun r hr' => ?_)
        rw [h2]
        simp only [CVec.mk', if_pos hr']
        rw [Finset.sum_range_succ, add_assoc])
  rw [e, he, hr, hc]
  congr 1
  refine CVec.mk'_congr (fun r hr' => ?_)
  have h1 : ∀ k ∈ Finset.range l, (evalRed n Ms u).e r k * G.e k = (Ms 0).e r k * G.e k
      + ∑ j ∈ Finset.range (n + 1), ((u.getD j 0 : Int) : R) * ((Ms (j + 1)).e r k * G.e k) := by
    intro k hk
    rw [evalRed_e hs n u hr' (Finset.mem_range.1 hk), add_mul, Finset.sum_mul]
    simp only [mul_assoc]
  rw [Finset.sum_congr rfl h1, Finset.sum_add_distrib, Finset.sum_comm]
  simp only [Finset.mul_sum]

theorem slopeRed_ok {l : Nat} {Ms : Nat → CMat R} (hs : SquareFam l Ms) (n : Nat) (v : IVec) :
    ∃ M, slopeRed n l Ms v = .ok M ∧ M.rows = l ∧ M.cols = l ∧ ∀ r c, r < l → c < l →
      M.e r c = ∑ i ∈ Finset.range (n + 1), ((v.getD i 0 : Int) : R) * (Ms (i + 1)).e r c := by
  obtain ⟨s', e, h1, h2, h3⟩ := forRange_inv (n := n + 1)
    (s := CMat.mk' l l (fun _ _ => (0 : R)))
    (f := fun i M =>
    if (Ms (i + 1)).rows = M.rows ∧ (Ms (i + 1)).cols = M.cols then
      pure (CMat.mk' M.rows M.cols (fun r c => M.e r c + ((v.getD i 0 : Int) : R) * (Ms (i + 1)).e r c))
    else .error .abort)
    (fun i M => M.rows = l ∧ M.cols = l ∧ ∀ r c, r < l → c < l →
      M.e r c = ∑ j ∈ Finset.range i, ((v.getD j 0 : Int) : R) * (Ms (j + 1)).e r c)
    ⟨rfl, rfl, by intro r c _ _; simp [CMat.mk']⟩
    (by
      rintro i M - ⟨h1, h2, h3⟩
      refine ⟨CMat.mk' M.rows M.cols (fun r c => M.e r c + ((v.getD i 0 : Int) : R) * (Ms (i + 1)).e r c),
        by rw [if_pos ⟨by rw [h1, (hs _).1], by rw [h2, (hs _).2]⟩, Res.pure_eq], h1, h2, ?_⟩
      intro r c hr hc
      simp only [CMat.mk', h1, h2, hr, hc, and_self, if_true]
      rw [Finset.sum_range_succ, h3 r c hr hc])
  exact ⟨s', e, h1, h2, h3⟩

/-- With a vector of the wrong length the slope matrix is refused. -/
theorem slopeRed_abort {l len : Nat} {Ms : Nat → CMat R} (hs : SquareFam l Ms) (n : Nat) (v : IVec) (h : len ≠ l) :
    slopeRed n len Ms v = .error .abort := by
  refine forRange_error 0 .abort (by omega) (fun i M => i = 0 → M.rows = len) (fun _ => rfl) (by omega) ?_
  intro M hM
  rw [if_neg]
  rintro ⟨h1, -⟩
  rw [(hs 1).1, hM rfl] at h1
  exact h h1.symm

theorem getD_axpy {u v : IVec} (h : u.length = v.length) (k : Int) (i : Nat) :
    (List.zipWith (fun a b => a + k * b) u v).getD i 0 = u.getD i 0 + k * v.getD i 0 := by
  by_cases hi : i < u.length
  · rw [getD_getElem _ _ _ (by rw [List.length_zipWith]; omega), getD_getElem _ _ _ hi,
      getD_getElem _ _ _ (by omega), List.getElem_zipWith]
  · have h1 : (List.zipWith (fun a b => a + k * b) u v)[i]? = none := by
      rw [List.getElem?_eq_none]; rw [List.length_zipWith]; omega
    have h2 : u[i]? = none := by rw [List.getElem?_eq_none]; omega
    have h3 : v[i]? = none := by rw [List.getElem?_eq_none]; omega
    simp only [List.getD, h1, h2, h3, Option.getD_none, mul_zero, add_zero]

/-- One pass of the batched loop is one single step. -/
theorem step_eq {l : Nat} {Ms : Nat → CMat R} (hs : SquareFam l Ms) (n : Nat) {u v : IVec}
    (huv : u.length = v.length) {M1 : CMat R} (e1 : slopeRed n l Ms v = .ok M1) (k : Nat) {G : CVec R}
    (hG : G.len = l) :
    ∃ G0 G1, (evalRed n Ms u).mulVec G = .ok G0 ∧ M1.mulVec G = .ok G1 ∧ G0.len = l ∧ G1.len = l ∧
      (evalRed n Ms (List.zipWith (fun a b => a + k * b) u v)).mulVec G
        = .ok (CVec.mk' l (fun r => G0.e r + (k : R) * G1.e r)) := by
  obtain ⟨M, e, h1, h2, h3⟩ := slopeRed_ok hs n v
  rw [e1] at e
  obtain rfl := Except.ok.inj e
  have hr : ∀ u, (evalRed n Ms u).rows = l := fun _ => (hs 0).1
  have hc : ∀ u, (evalRed n Ms u).cols = l := fun _ => (hs 0).2
  refine ⟨_, _, mulVec_eq (by rw [hc, hG]), mulVec_eq (by rw [h2, hG]), hr u, h1, ?_⟩
  rw [mulVec_eq (by rw [hc, hG]), hr, hc]
  congr 1
  refine CVec.mk'_congr (fun r hr' => ?_)
  simp only [CVec.mk', hr, hc, h1, h2, if_pos hr']
  rw [Finset.mul_sum, ← Finset.sum_add_distrib]
  refine Finset.sum_congr rfl (fun c hc' => ?_)
  have hc'' := Finset.mem_range.1 hc'
  rw [evalRed_e hs n _ hr' hc'', evalRed_e hs n u hr' hc'', h3 r c hr' hc'', ← mul_assoc, ← add_mul,
    Finset.mul_sum, add_assoc, ← Finset.sum_add_distrib]
  congr 2
  refine Finset.sum_congr rfl (fun i _ => ?_)
  rw [getD_axpy huv]
  push_cast
  ring

theorem polyLoop_eq {l : Nat} {Ms : Nat → CMat R} (hs : SquareFam l Ms) (n : Nat) {u v : IVec}
    (huv : u.length = v.length) {M1 : CMat R} (e1 : slopeRed n l Ms v = .ok M1) (k : Nat) :
    ∀ G : CVec R, G.len = l → polyLoop id (evalRed n Ms u) M1 k G
      = singleSteps (fun w G => (evalRed n Ms w).mulVec G) u v k G := by
  induction k with
  | zero => intro G _; rfl
  | succ k ih =>
    intro G hG
    obtain ⟨G0, G1, a1, a2, a3, a4, a5⟩ := step_eq hs n huv e1 k hG
    rw [polyLoop, singleSteps, a1, Res.bind_ok, a2, Res.bind_ok, if_pos (by omega), a5, Res.bind_ok, a3]
    exact ih _ rfl

/-- The fetched matrices. -/
theorem freshRedJ_ok {solve : Solver R} (hsolve : SolverOK solve) {D : DR R} (hD : DROk D)
    (htop : TopOK solve D) {v : IVec} (hv : IsTuple (D.n + 1) D.d v) :
    ∃ L, IsTable D.n ((D.d : Int) * D.n - D.n) L ∧ D.list ((D.d : Int) * D.n - D.n) = .ok L ∧
      ∃ g : Nat → Nat → Nat → R, freshRedJ solve D v = .ok (fun i => CMat.mk' L.length L.length (g i)) := by
  obtain ⟨listG, listF, listW, U, hG, hF, hW, eG, eG', eF, eW, eU, hr, hc, hdec⟩ := top_ok hsolve hD htop
  obtain ⟨col, hcol, eM⟩ := redMatJ_ok hG hF hW eG eG' eF eW hr hc hv
  exact ⟨listG, hG, eG, fun i r c => col c i r, by rw [freshRedJ, eU, Res.bind_ok]; exact eM⟩

theorem squareFam_mk' (l : Nat) (g : Nat → Nat → Nat → R) : SquareFam l (fun i => CMat.mk' l l (g i)) :=
  fun _ => ⟨rfl, rfl⟩

theorem reduceVectorJ_fresh (solve : Solver R) (D : DR R) (u v : IVec) (G : CVec R) :
    reduceVectorJ solve D u v G = (do
      checkUV D u v
      let Ms ← freshRedJ solve D v
      reduceWith D.n Ms u G) := by
  rw [reduceVectorJ, freshRedJ]
  cases checkUV D u v with
  | error e => rfl
  | ok _ =>
    simp only [Res.bind_ok]
    cases solveJ solve D D.topLevel with
    | error e => rfl
    | ok top => rfl

theorem ev_axpy {n : Nat} {u v : IVec} (h : u.length = v.length) (k : Int) :
    ev n (List.zipWith (fun a b => a + k * b) u v) = fun i => ev n u i + k * ev n v i := by
  funext i
  exact getD_axpy h k i

end generic

section overZ

variable {q : Nat} [NeZero q]

theorem cast_liftZ (x : ZMod q) : ((liftZ x : Int) : ZMod q) = x := by
  rw [liftZ, Int.cast_natCast, ZMod.natCast_zmod_val]

/-- The entries of the two `l x l` matrices agree modulo `q`. -/
def CongrSq (l : Nat) (Z : CMat Int) (M : CMat (ZMod q)) : Prop :=
  Z.rows = l ∧ Z.cols = l ∧ M.rows = l ∧ M.cols = l ∧
    ∀ r c, r < l → c < l → ((Z.e r c : Int) : ZMod q) = M.e r c

omit [NeZero q] in
theorem mulVec_congr {l : Nat} {Z : CMat Int} {M : CMat (ZMod q)} (h : CongrSq l Z M) {GZ : CVec Int}
    {G : CVec (ZMod q)} (hG : CongrVec GZ G) (hl : G.len = l) :
    ∃ HZ H, Z.mulVec GZ = .ok HZ ∧ M.mulVec G = .ok H ∧ CongrVec HZ H ∧ H.len = l := by
  obtain ⟨h1, h2, h3, h4, h5⟩ := h
  refine ⟨_, _, mulVec_eq (by rw [h2, hG.1, hl]), mulVec_eq (by rw [h4, hl]), ⟨by rw [CVec.mk', CVec.mk', h1, h3], ?_⟩, h3⟩
  intro r hr
  have hr' : r < l := by rw [← h3]; exact hr
  simp only [CVec.mk', h1, h2, h3, h4, if_pos hr']
  push_cast
  refine Finset.sum_congr rfl (fun k hk => ?_)
  have hk' := Finset.mem_range.1 hk
  rw [h5 r k hr' hk', hG.2 k (by omega)]

omit [NeZero q] in
/-- Families of matrices over `ZZ` and `ZZ_p` that agree. -/
theorem evalRed_congr {l : Nat} {Zs : Nat → CMat Int} {Ms : Nat → CMat (ZMod q)}
    (h : ∀ i, CongrSq l (Zs i) (Ms i)) (n : Nat) (u : IVec) :
    CongrSq l (evalRed n Zs u) (evalRed n Ms u) := by
  have hZ : SquareFam l Zs := fun i => ⟨(h i).1, (h i).2.1⟩
  have hM : SquareFam l Ms := fun i => ⟨(h i).2.2.1, (h i).2.2.2.1⟩
  refine ⟨(hZ 0).1, (hZ 0).2, (hM 0).1, (hM 0).2, fun r c hr hc => ?_⟩
  rw [evalRed_e hZ n u hr hc, evalRed_e hM n u hr hc]
  push_cast
  rw [(h 0).2.2.2.2 r c hr hc]
  congr 1
  exact Finset.sum_congr rfl (fun i _ => by rw [(h (i + 1)).2.2.2.2 r c hr hc])

omit [NeZero q] in
theorem slopeRed_congr {l : Nat} {Zs : Nat → CMat Int} {Ms : Nat → CMat (ZMod q)}
    (h : ∀ i, CongrSq l (Zs i) (Ms i)) (n : Nat) (v : IVec) :
    ∃ Z M, slopeRed n l Zs v = .ok Z ∧ slopeRed n l Ms v = .ok M ∧ CongrSq l Z M := by
  have hZ : SquareFam l Zs := fun i => ⟨(h i).1, (h i).2.1⟩
  have hM : SquareFam l Ms := fun i => ⟨(h i).2.2.1, (h i).2.2.2.1⟩
  obtain ⟨Z, e1, a1, a2, a3⟩ := slopeRed_ok hZ n v
  obtain ⟨M, e2, b1, b2, b3⟩ := slopeRed_ok hM n v
  refine ⟨Z, M, e1, e2, a1, a2, b1, b2, fun r c hr hc => ?_⟩
  rw [a3 r c hr hc, b3 r c hr hc]
  push_cast
  exact Finset.sum_congr rfl (fun i _ => by rw [(h (i + 1)).2.2.2.2 r c hr hc])

/-- Entries in `[0, q)`. -/
def Reduced (q : Nat) (Z : CVec Int) : Prop := ∀ r, r < Z.len → 0 ≤ Z.e r ∧ Z.e r < q

theorem polyLoop_congr {l : Nat} {Z0 Z1 : CMat Int} {M0 M1 : CMat (ZMod q)} (h0 : CongrSq l Z0 M0)
    (h1 : CongrSq l Z1 M1) (k : Nat) : ∀ (GZ : CVec Int) (G : CVec (ZMod q)), CongrVec GZ G → G.len = l →
    ∃ HZ H, polyLoop (· % (q : Int)) Z0 Z1 k GZ = .ok HZ ∧ polyLoop id M0 M1 k G = .ok H ∧ CongrVec HZ H ∧
      H.len = l ∧ ((1 ≤ k ∨ Reduced q GZ) → Reduced q HZ) := by
  induction k with
  | zero => intro GZ G h hl; exact ⟨GZ, G, rfl, rfl, h, hl, by rintro (h | h); omega; exact h⟩
  | succ k ih =>
    intro GZ G h hl
    obtain ⟨A, B, e1, e2, c1, l1⟩ := mulVec_congr h0 h hl
    obtain ⟨A', B', e3, e4, c2, l2⟩ := mulVec_congr h1 h hl
    have hlA : A.len = l := by rw [c1.1, l1]
    have hlA' : A'.len = l := by rw [c2.1, l2]
    obtain ⟨HZ, H, a1, a2, a3, a4, a5⟩ := ih
      (CVec.mk' A.len (fun r => (A.e r + (k : Int) * A'.e r) % (q : Int)))
      (CVec.mk' B.len (fun r => id (B.e r + (k : ZMod q) * B'.e r))) (by
        refine ⟨c1.1, fun r hr => ?_⟩
        have hr' : r < B.len := hr
        have hr'' : r < A.len := by rw [c1.1]; exact hr'
        simp only [CVec.mk', if_pos hr', if_pos hr'', id]
        rw [ZMod.intCast_mod, Int.cast_add, Int.cast_mul, c1.2 r hr', c2.2 r (by omega), Int.cast_natCast])
      l1
    refine ⟨HZ, H, ?_, ?_, a3, a4, fun _ => a5 (Or.inr ?_)⟩
    · rw [polyLoop, e1, Res.bind_ok, e3, Res.bind_ok, if_pos (by omega)]; exact a1
    · rw [polyLoop, e2, Res.bind_ok, e4, Res.bind_ok, if_pos (by omega)]; exact a2
    · intro r hr
      have hr' : r < A.len := hr
      have hq : (0 : Int) < q := by have := NeZero.pos q; omega
      simp only [CVec.mk', if_pos hr']
      exact ⟨Int.emod_nonneg _ (by omega), Int.emod_lt_of_pos _ hq⟩

theorem lift_congr (l : Nat) (g : Nat → Nat → Nat → ZMod q) (i : Nat) :
    CongrSq l ((CMat.mk' l l (g i)).map liftZ) (CMat.mk' l l (g i)) := by
  refine ⟨rfl, rfl, rfl, rfl, fun r c hr hc => ?_⟩
  have : ((CMat.mk' l l (g i)).map liftZ).e r c = liftZ ((CMat.mk' l l (g i)).e r c) := by
    simp only [CMat.map, CMat.mk', hr, hc, and_self, if_true]
  rw [this, cast_liftZ]

end overZ

end Verif
