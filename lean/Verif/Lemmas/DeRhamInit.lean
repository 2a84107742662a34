import Mathlib.Algebra.Polynomial.Coeff
import Mathlib.Algebra.Polynomial.BigOperators
import Verif.Lemmas.DeRhamMono

/-!
The constructor of `de_Rham_local` establishes the invariants the reduction functions rely on.
-/

namespace Verif

open Spec MvPolynomial

variable {R : Type} [CommRing R]

theorem mapM_eq_ok {α β : Type} (f : α → Res β) (g : α → β) :
    ∀ (l : List α), (∀ a ∈ l, f a = .ok (g a)) → l.mapM f = .ok (l.map g)
  | [], _ => rfl
  | a :: l, h => by
    rw [List.mapM_cons, h a (by simp), Res.bind_ok, mapM_eq_ok f g l (fun a ha => h a (by simp [ha]))]
    rfl

/-- The tables hold as soon as the number of monomials of every degree fits in 63 bits. -/
theorem tupleTables_ok {n d : Nat} (h : ∀ l ≤ (n + 1) * d, (l + n).choose n < 2 ^ 63) :
    tupleTables n d = .ok ((List.range ((n + 1) * d + 1)).map (comps n)) := by
  rw [tupleTables]
  apply mapM_eq_ok
  intro l hl
  exact tupleListGenerator_eq l n (h l (by have := List.mem_range.1 hl; omega))

theorem comps_isTable (n l : Nat) : IsTable n l (comps n l) :=
  ⟨comps_sorted n l, fun t => mem_comps n l t⟩

/-- `get_solve_J` in every degree with a table. -/
theorem solveJ_shape {solve : Solver R} (hsolve : SolverOK solve) {D : DR R} (hD : DROk D) (l : Int)
    (h0 : 0 ≤ l) (h1 : l ≤ (D.n + 1) * D.d) :
    ∃ L B U, IsTable D.n l L ∧ D.list l = .ok L ∧ solveJ solve D l = .ok (B, U) ∧
      B.Pairwise (· < ·) ∧ ∀ b ∈ B, b < L.length := by
  by_cases hl : l < (D.d : Int) - 1
  · obtain ⟨L, hL, eL, eM⟩ := matrixJ_small hD l h0 hl
    obtain ⟨B, U, eU, hU⟩ := hsolve (CMat.mk' L.length 0 (fun _ _ => 0))
    exact ⟨L, B, U, hL, eL, by rw [solveJ, eM]; exact eU, hU.sorted, hU.lt⟩
  · obtain ⟨L, S, B, U, hL, -, eL, -, e, -, -, hs, hlt, -⟩ := solveJ_ok hsolve hD l (by omega) h1
    exact ⟨L, B, U, hL, eL, e, hs, hlt⟩

/-- The monomials appended by pass `i` of the basis loop. -/
def basisBlock (solve : Solver R) (D : DR R) (i : Nat) : List IVec :=
  match solveJ solve D (((i : Int) + 1) * D.d - (D.n + 1)), D.list (((i : Int) + 1) * D.d - (D.n + 1)) with
  | .ok BU, .ok L => BU.1.map (fun b => L.getD b [])
  | _, _ => []

structure BlockOK (solve : Solver R) (D : DR R) (i : Nat) (b : List IVec) : Prop where
  nodup : b.Nodup
  tuple : ∀ t ∈ b, IsTuple (D.n + 1) (((i : Int) + 1) * D.d - (D.n + 1)) t
  count : hilbertJ D.d D.n ((i + 1) * D.d - (D.n + 1)) = b.length
  mem : ∀ B U L, solveJ solve D (((i : Int) + 1) * D.d - (D.n + 1)) = .ok (B, U) →
    D.list (((i : Int) + 1) * D.d - (D.n + 1)) = .ok L → ∀ j ∈ B, L.getD j [] ∈ b

theorem initBasis_ok {solve : Solver R} (hsolve : SolverOK solve) {D : DR R} (hD : DROk D)
    {basis : List IVec} (h : initBasis solve D = .ok basis) :
    basis = (List.range D.n).flatMap (basisBlock solve D) ∧
      ∀ i, i < D.n → BlockOK solve D i (basisBlock solve D i) := by
  have hd := hD.hd
  refine forRange_ok_inv (n := D.n) (P := fun k acc =>
    acc = (List.range k).flatMap (basisBlock solve D) ∧
      ∀ i, i < k → BlockOK solve D i (basisBlock solve D i))
    ⟨rfl, fun i hi => by omega⟩ ?_ h
  rintro i acc acc' hi ⟨rfl, h2⟩ hstep
  have hlev0 : (0 : Int) ≤ ((i : Int) + 1) * D.d - (D.n + 1) := by nlinarith
  have hlev1 : ((i : Int) + 1) * D.d - (D.n + 1) ≤ (D.n + 1) * D.d := by
    have : ((i : Int) + 1) * D.d ≤ (D.n + 1) * D.d := by
      apply mul_le_mul_of_nonneg_right <;> omega
    omega
  obtain ⟨L, B, U, hL, eL, eU, hs, hlt⟩ := solveJ_shape hsolve hD _ hlev0 hlev1
  have hmap : B.mapM (fun b => aget L b) = .ok (B.map (fun b => L.getD b [])) := by
    apply mapM_eq_ok
    intro b hb
    rw [aget_of_lt _ _ (hlt b hb), getD_getElem _ _ _ (hlt b hb)]
  have hblk : basisBlock solve D i = B.map (fun b => L.getD b []) := by
    rw [basisBlock, eU, eL]
  simp only [eU, eL, Res.bind_ok] at hstep
  rw [if_neg (by omega), Res.bind_eq_ok] at hstep
  obtain ⟨_, hc, hstep⟩ := hstep
  rw [hmap, Res.bind_ok] at hstep
  have hc := of_decide_eq_true (check_eq_ok.1 hc)
  have hacc := Except.ok.inj hstep
  refine ⟨?_, fun j hj => ?_⟩
  · rw [← hacc, List.range_succ, List.flatMap_append, List.flatMap_singleton, hblk]
  · by_cases hji : j = i
    · subst hji
      refine ⟨?_, ?_, ?_, ?_⟩
      · rw [hblk]
        refine List.Nodup.map_on ?_ (hs.imp (fun h => Nat.ne_of_lt h))
        intro x hx y hy hxy
        exact hL.getD_inj (hlt x hx) (hlt y hy) hxy
      · intro t ht
        rw [hblk] at ht
        obtain ⟨b, hb, rfl⟩ := List.mem_map.1 ht
        exact hL.tuple (hlt b hb)
      · rw [hblk, List.length_map, ← hc]
        congr 1
        have : (((j + 1) * D.d - (D.n + 1) : ℕ) : Int) = ((j : Int) + 1) * D.d - (D.n + 1) := by
          rw [Nat.cast_sub]
          · push_cast; ring
          · have : D.d ≤ (j + 1) * D.d := Nat.le_mul_of_pos_left _ (by omega)
            omega
        omega
      · intro B' U' L' e1 e2 b hb
        rw [eU] at e1
        rw [eL] at e2
        have h3 := congrArg Prod.fst (Except.ok.inj e1)
        have h4 := Except.ok.inj e2
        simp only at h3
        rw [hblk, ← h4]
        exact List.mem_map.2 ⟨b, by rw [h3]; exact hb, rfl⟩
    · exact h2 j (by omega)

theorem hilbertJ_eq (d n k : Nat) :
    hilbertJ d n k = ((∑ i ∈ Finset.range (d - 1), (Polynomial.X : Polynomial ℤ) ^ i) ^ (n + 1)).coeff k := by
  have hpol : ∀ j, (if j + 1 < d then (1 : Int) else 0)
      = (∑ i ∈ Finset.range (d - 1), (Polynomial.X : Polynomial ℤ) ^ i).coeff j := by
    intro j
    simp only [Polynomial.finsetSum_coeff, Polynomial.coeff_X_pow]
    rw [Finset.sum_ite_eq]
    simp only [Finset.mem_range]
    by_cases h : j + 1 < d
    · rw [if_pos h, if_pos (by omega)]
    · rw [if_neg h, if_neg (by omega)]
  have : ∀ m k, (Nat.rec (fun k => if k = 0 then 1 else 0)
    (fun _ H => polyMul H (fun k => if k + 1 < d then 1 else 0)) m : Nat → Int) k
      = ((∑ i ∈ Finset.range (d - 1), (Polynomial.X : Polynomial ℤ) ^ i) ^ m).coeff k := by
    intro m
    induction m with
    | zero => intro k; simp [Polynomial.coeff_one]
    | succ m ih =>
      intro k
      rw [pow_succ, Polynomial.coeff_mul, Finset.Nat.sum_antidiagonal_eq_sum_range_succ
        (fun a b => ((∑ i ∈ Finset.range (d - 1), (Polynomial.X : Polynomial ℤ) ^ i) ^ m).coeff a
          * (∑ i ∈ Finset.range (d - 1), (Polynomial.X : Polynomial ℤ) ^ i).coeff b)]
      show polyMul _ _ k = _
      rw [polyMul, sumLoop_eq_sum]
      refine Finset.sum_congr rfl (fun j _ => ?_)
      rw [ih, hpol]
  exact this (n + 1) k

/-- Everything the constructor establishes. -/
structure InitOK (solve : Solver R) (p : Nat) (f : MonMap R) (D : DR R) : Prop where
  f_eq : D.f = f
  len : ∀ e ∈ f, e.1.length = D.n + 1
  pd : D.d % p ≠ 0
  ok : DROk D
  top : TopOK solve D
  basis : BasisOK solve D
  blocks : D.basis = (List.range D.n).flatMap (basisBlock solve D)
  block : ∀ i, i < D.n → BlockOK solve D i (basisBlock solve D i)

theorem init_ok {solve : Solver R} (hsolve : SolverOK solve) {p : Nat} {f : MonMap R} {n d : Nat}
    (hf : WFPoly (n + 1) f) (hdeg : ∀ e ∈ f, deg e.1 = d)
    (hsize : ∀ l ≤ (n + 1) * d, (l + n).choose n < 2 ^ 63) {D : DR R}
    (h : DR.init solve p f = .ok D) : D.n = n ∧ D.d = d ∧ InitOK solve p f D := by
  cases f with
  | nil => cases h
  | cons e f =>
    obtain ⟨k, c⟩ := e
    have hk := hf.1 (k, c) (by simp)
    have hkd : k.sum = d := hdeg (k, c) (by simp)
    simp only [DR.init] at h
    have hkl : k.length = n + 1 := hk.1
    by_cases hp : p = 0
    · rw [if_pos (Or.inr (Or.inr hp))] at h; cases h
    rw [sumVec_eq_sum, hkd, hkl] at h
    rw [if_neg (by omega)] at h
    simp only [Nat.add_sub_cancel, Int.toNat_natCast] at h
    rw [Res.bind_eq_ok] at h
    obtain ⟨_, hnd, h⟩ := h
    have hnd := of_decide_eq_true (check_eq_ok.1 hnd)
    rw [Res.bind_eq_ok] at h
    obtain ⟨_, hpd, h⟩ := h
    have hpd := of_decide_eq_true (check_eq_ok.1 hpd)
    rw [tupleTables_ok hsize, Res.bind_ok] at h
    obtain ⟨D0, hD0⟩ : ∃ D0 : DR R, D0 = ⟨n, d, (k, c) :: f,
      (List.range ((n + 1) * d + 1)).map (comps n),
      ((List.range ((n + 1) * d + 1)).map (comps n)).map buildDict, [], []⟩ := ⟨_, rfl⟩
    rw [← hD0] at h
    have hok : ∀ b bd, DROk ({ D0 with basis := b, basisDict := bd } : DR R) := by
      intro b bd
      subst hD0
      refine ⟨⟨hf, hdeg, ?_⟩, hnd⟩
      intro l hl
      refine ⟨comps n l, comps_isTable n l, ?_, ?_⟩
      · have : l < (n + 1) * d + 1 := by simp only at hl; omega
        simp [this]
      · have : l < (n + 1) * d + 1 := by simp only at hl; omega
        simp [this]
    rw [Res.bind_eq_ok] at h
    obtain ⟨⟨Bt, Ut⟩, htop, h⟩ := h
    rw [Res.bind_eq_ok] at h
    obtain ⟨_, hBt, h⟩ := h
    have hBt := of_decide_eq_true (check_eq_ok.1 hBt)
    rw [Res.bind_eq_ok] at h
    obtain ⟨basis, hbasis, h⟩ := h
    have hD : ({ D0 with basis := basis, basisDict := buildDict basis } : DR R) = D := by
      rw [hD0]; exact Except.ok.inj h
    have hD0ok : DROk D0 := by
      have := hok D0.basis D0.basisDict
      exact this
    obtain ⟨hb1, hb2⟩ := initBasis_ok hsolve hD0ok hbasis
    have en : D0.n = n := by rw [hD0]
    have ed : D0.d = d := by rw [hD0]
    have ef : D0.f = (k, c) :: f := by rw [hD0]
    subst hD
    have hblkEq : basisBlock solve ({ D0 with basis := basis, basisDict := buildDict basis } : DR R)
        = basisBlock solve D0 := rfl
    have hdisj : ∀ i j, i < D0.n → j < D0.n → ∀ t, t ∈ basisBlock solve D0 i →
        t ∈ basisBlock solve D0 j → i = j := by
      intro i j hi hj t h1 h2
      have t1 := ((hb2 i hi).tuple t h1).2.2
      have t2 := ((hb2 j hj).tuple t h2).2.2
      rw [t1] at t2
      have : ((i : Int) + 1) * D0.d = ((j : Int) + 1) * D0.d := by omega
      have := mul_right_cancel₀ (by omega : (D0.d : Int) ≠ 0) this
      omega
    refine ⟨en, ed, ef, ?_, by simpa [ed] using hpd, hok _ _, ?_, ⟨rfl, ?_, ?_, ?_⟩, ?_, ?_⟩
    · intro e he; rw [(hf.1 e he).1]; simp only [en]
    · refine ⟨Ut, ?_⟩
      have hBt' : Bt = [] := List.length_eq_zero_iff.1 hBt
      rw [hBt'] at htop
      exact htop
    · simp only
      rw [hb1, List.nodup_flatMap]
      refine ⟨fun i hi => (hb2 i (List.mem_range.1 hi)).nodup, ?_⟩
      refine List.Pairwise.imp_of_mem ?_ (List.nodup_range (n := D0.n))
      intro i j hi hj hne t h1 h2
      exact hne (hdisj i j (List.mem_range.1 hi) (List.mem_range.1 hj) t h1 h2)
    · intro t ht
      simp only at ht
      rw [hb1, List.mem_flatMap] at ht
      obtain ⟨i, hi, ht⟩ := ht
      have hi := List.mem_range.1 hi
      refine ⟨i + 1, by omega, by simp only; omega, ?_⟩
      have := (hb2 i hi).tuple t ht
      simpa using this
    · intro k' hk1 hk2 B U L e1 e2 b hb
      simp only at hk2
      obtain ⟨i, rfl⟩ : ∃ i, k' = i + 1 := ⟨k' - 1, by omega⟩
      push_cast at e1 e2
      have := (hb2 i (by omega)).mem B U L e1 e2 b hb
      simp only
      rw [hb1, List.mem_flatMap]
      exact ⟨i, List.mem_range.2 (by omega), this⟩
    · exact hb1
    · intro i hi
      have := hb2 i hi
      exact ⟨this.nodup, this.tuple, this.count, this.mem⟩

end Verif
