import Verif.Lemmas.SolveSystem4

namespace Verif

open Spec Finset

variable {F : Type} [Field F]

theorem npBelow_mem {r : Nat} {c : Nat → Nat} {n x : Nat} :
    x ∈ npBelow r c n ↔ x < n ∧ ∀ i, i < r → c i ≠ x := by
  simp [npBelow]

theorem npBelow_sorted (r : Nat) (c : Nat → Nat) (n : Nat) : (npBelow r c n).Pairwise (· < ·) :=
  List.Pairwise.filter _ List.pairwise_lt_range

theorem getD_range_map (r : Nat) (c : Nat → Nat) (i : Nat) (hi : i < r) :
    ((List.range r).map c).getD i 0 = c i := by
  rw [List.getD_eq_getElem?_getD, List.getElem?_map, List.getElem?_range hi]; rfl

theorem getD_mem {l : List Nat} {k : Nat} (hk : k < l.length) : l.getD k 0 ∈ l := by
  rw [List.getD_eq_getElem?_getD, List.getElem?_eq_getElem hk]
  exact List.getElem_mem _

theorem getD_inj {l : List Nat} (h : l.Pairwise (· < ·)) {k k' : Nat} (hk : k < l.length)
    (hk' : k' < l.length) (he : l.getD k 0 = l.getD k' 0) : k = k' := by
  rw [List.getD_eq_getElem?_getD, List.getElem?_eq_getElem hk, List.getD_eq_getElem?_getD,
    List.getElem?_eq_getElem hk'] at he
  have hnd : l.Nodup := h.imp (fun h => Nat.ne_of_lt h)
  exact (List.Nodup.getElem_inj_iff hnd).1 he

theorem Spec.Echelon.inj {T E : CMat F} {r : Nat} {c : Nat → Nat} (h : Echelon T E r c) {i j : Nat}
    (hi : i < r) (hj : j < r) (hij : c i = c j) : i = j := by
  rcases Nat.lt_trichotomy i j with h' | h' | h'
  · have := h.mono i j h' hj; omega
  · exact h'
  · have := h.mono j i h' hi; omega

/-- Sum over the pivots written as a sum over all columns. -/
theorem sum_pivots {T E : CMat F} {r : Nat} {c : Nat → Nat} (h : Echelon T E r c) (x : Nat → F)
    (a : Nat) :
    ∑ i ∈ range r, T.e a (c i) * x i
      = ∑ l ∈ range T.cols, T.e a l * ∑ i ∈ range r, (if c i = l then x i else 0) := by
  simp only [Finset.mul_sum]
  rw [Finset.sum_comm]
  refine Finset.sum_congr rfl (fun i hi => ?_)
  rw [Finset.sum_eq_single (c i)]
  · rw [if_pos rfl]
  · intro b _ hb; rw [if_neg (Ne.symm hb), mul_zero]
  · intro hn
    exact absurd (Finset.mem_range.2 (h.lt i (Finset.mem_range.1 hi))) hn

/-- The image of `T` meets the span of the unit vectors of nonpivot rows in zero. -/
theorem complement {T E' : CMat F} {r : Nat} {c' : Nat → Nat} (h' : Echelon T.tr E' r c')
    (B : List Nat) (hB : B = npBelow r c' T.rows) (x β : Nat → F)
    (H : ∀ a, a < T.rows → ∑ l ∈ range T.cols, T.e a l * x l
      + ∑ k ∈ range B.length, (if a = B.getD k 0 then β k else 0) = 0) :
    (∀ a, a < T.rows → ∑ l ∈ range T.cols, T.e a l * x l = 0) ∧ ∀ k, k < B.length → β k = 0 := by
  have h1 : ∀ a, a < T.rows → ∑ l ∈ range T.cols, T.e a l * x l = 0 := by
    apply image_disjoint h'
    intro i hi
    have hlt : c' i < T.rows := h'.lt i hi
    have := H (c' i) hlt
    rwa [Finset.sum_eq_zero (s := range B.length), add_zero] at this
    intro k hk
    rw [if_neg]
    intro he
    have hm := getD_mem (Finset.mem_range.1 hk)
    rw [← he, hB, npBelow_mem] at hm
    exact hm.2 i hi rfl
  refine ⟨h1, fun k hk => ?_⟩
  have hm := getD_mem hk
  have hlt : B.getD k 0 < T.rows := by
    rw [hB, npBelow_mem] at hm
    rw [hB]; exact hm.1
  have := H _ hlt
  rw [h1 _ hlt, zero_add, Finset.sum_eq_single k, if_pos rfl] at this
  · exact this
  · intro k' hk' hne
    rw [if_neg]
    intro he
    apply hne
    refine getD_inj ?_ (Finset.mem_range.1 hk') hk he.symm
    rw [hB]; exact npBelow_sorted _ _ _
  · intro hn; exact absurd (Finset.mem_range.2 hk) hn

theorem solveY_e (T : CMat F) (piv B : List Nat) (r a i : Nat) (ha : a < T.rows) (hi : i < T.rows) :
    (solveY T piv B r).e a i
      = if i < r then T.e a (piv.getD i 0) else if a = B.getD (i - r) 0 then 1 else 0 := by
  unfold solveY CMat.mk'
  simp only
  rw [if_pos ⟨ha, hi⟩]

theorem solveY_sum (T : CMat F) (r : Nat) (c : Nat → Nat) (B : List Nat)
    (hB : B.length + r = T.rows) (x : Nat → F) (a : Nat) (ha : a < T.rows) :
    ∑ i ∈ range T.rows, (solveY T ((List.range r).map c) B r).e a i * x i
      = ∑ i ∈ range r, T.e a (c i) * x i
        + ∑ k ∈ range B.length, (if a = B.getD k 0 then x (r + k) else 0) := by
  have : T.rows = r + B.length := by omega
  rw [show (∑ i ∈ range T.rows, (solveY T ((List.range r).map c) B r).e a i * x i)
    = ∑ i ∈ range (r + B.length), (solveY T ((List.range r).map c) B r).e a i * x i by rw [this]]
  rw [Finset.sum_range_add]
  congr 1
  · refine Finset.sum_congr rfl (fun i hi => ?_)
    rw [Finset.mem_range] at hi
    rw [solveY_e _ _ _ _ _ _ ha (by omega), if_pos hi, getD_range_map r c i hi]
  · refine Finset.sum_congr rfl (fun k hk => ?_)
    rw [Finset.mem_range] at hk
    rw [solveY_e _ _ _ _ _ _ ha (by omega), if_neg (by omega), show r + k - r = k by omega]
    split <;> simp

theorem solveY_det {T E E' : CMat F} {r : Nat} {c c' : Nat → Nat} (h : Echelon T E r c)
    (h' : Echelon T.tr E' r c') (B : List Nat) (hB : B = npBelow r c' T.rows) :
    IsUnit (toMat (solveY T ((List.range r).map c) B r) T.rows T.rows).det := by
  rw [isUnit_iff_ne_zero]
  intro hdet
  obtain ⟨v, hv, hv0⟩ := Matrix.exists_mulVec_eq_zero_iff.2 hdet
  apply hv
  have hlen : B.length + r = T.rows := by
    rw [hB]; exact npBelow_length r c' _ h'.mono (fun i hi => h'.lt i hi)
  set x : Nat → F := fun i => if hi : i < T.rows then v ⟨i, hi⟩ else 0 with hx
  have H : ∀ a, a < T.rows → ∑ i ∈ range r, T.e a (c i) * x i
        + ∑ k ∈ range B.length, (if a = B.getD k 0 then x (r + k) else 0) = 0 := by
    intro a ha
    rw [← solveY_sum T r c B hlen x a ha, Finset.sum_range]
    have := congrFun hv0 ⟨a, ha⟩
    rw [Matrix.mulVec, dotProduct] at this
    rw [← this.trans (by rfl : (0 : Fin T.rows → F) ⟨a, ha⟩ = 0)]
    refine Finset.sum_congr rfl (fun i _ => ?_)
    rw [hx]
    simp only
    rw [dif_pos i.isLt]; rfl
  obtain ⟨g1, g2⟩ := complement h' B hB (fun l => ∑ i ∈ range r, (if c i = l then x i else 0))
    (fun k => x (r + k)) (fun a ha => by rw [← sum_pivots h]; exact H a ha)
  have g3 := cols_indep h x (fun a ha => by rw [sum_pivots h]; exact g1 a ha)
  funext i
  have : x i = 0 := by
    rcases Nat.lt_or_ge i r with hi | hi
    · exact g3 i hi
    · have := g2 (i - r) (by have := i.isLt; omega)
      rwa [show r + (i.val - r) = i.val by omega] at this
  rw [hx] at this
  simp only at this
  rw [dif_pos i.isLt] at this
  simpa using this

theorem setRow_ok {R : Type} (U : CMat R) (a : Nat) (f : Nat → R) (ha : a < U.rows) :
    U.setRow a f
      = .ok ⟨U.rows, U.cols, fun i j => if i = a ∧ j < U.cols then f j else U.e i j⟩ := by
  rw [CMat.setRow, if_pos ha]

theorem solveU_ok {T E Z : CMat F} {r : Nat} {c : Nat → Nat} (h : Echelon T E r c) (hrn : r ≤ T.cols) :
    ∃ U, solveU T Z ((List.range r).map c) r = .ok U ∧ U.rows = T.cols + (T.rows - r) ∧
      U.cols = T.rows ∧
      (∀ l, l < T.cols → ∀ b, b < T.rows → U.e l b = ∑ i ∈ range r, (if c i = l then Z.e i b else 0)) ∧
      (∀ k, k < T.rows - r → ∀ b, b < T.rows → U.e (T.cols + k) b = Z.e (r + k) b) := by
  unfold solveU
  simp only
  have hr := h.r_le
  obtain ⟨U1, e1, p1, p2, p3⟩ := forRange_inv (n := r)
    (s := CMat.mk' (T.cols + T.rows - r) T.rows (fun _ _ => (0 : F)))
    (f := fun i U => U.setRow (((List.range r).map c).getD i 0) (Z.e i))
    (fun i U => U.rows = T.cols + T.rows - r ∧ U.cols = T.rows ∧
      ∀ l b, b < T.rows → U.e l b = ∑ k ∈ range i, (if c k = l then Z.e k b else 0))
    ⟨rfl, rfl, by intro l b hb; simp [CMat.mk']⟩
    (by
      rintro i U hi ⟨q1, q2, q3⟩
      rw [getD_range_map r c i hi]
      have hlt := h.lt i hi
      refine ⟨_, setRow_ok U _ _ (by rw [q1]; omega), q1, q2, ?_⟩
      intro l b hb
      simp only
      rw [Finset.sum_range_succ]
      by_cases hl : l = c i
      · subst hl
        rw [if_pos ⟨rfl, by rw [q2]; exact hb⟩, if_pos rfl, Finset.sum_eq_zero, zero_add]
        intro k hk
        rw [Finset.mem_range] at hk
        rw [if_neg]
        intro he
        have := h.inj (by omega) hi he
        omega
      · rw [if_neg (fun hh => hl hh.1), if_neg (fun hh => hl hh.symm), add_zero, q3 l b hb])
  rw [e1, Res.bind_ok]
  obtain ⟨U2, e2, q1, q2, q3, q4⟩ := forRange_inv (n := T.rows - r) (s := U1)
    (f := fun i U => U.setRow (T.cols - r + (r + i)) (Z.e (r + i)))
    (fun i U => U.rows = T.cols + T.rows - r ∧ U.cols = T.rows ∧
      (∀ l, l < T.cols → ∀ b, b < T.rows →
        U.e l b = ∑ k ∈ range r, (if c k = l then Z.e k b else 0)) ∧
      ∀ k, k < i → ∀ b, b < T.rows → U.e (T.cols + k) b = Z.e (r + k) b)
    ⟨p1, p2, fun l _ b hb => p3 l b hb, by intro k hk; omega⟩
    (by
      rintro i U hi ⟨q1, q2, q3, q4⟩
      rw [show T.cols - r + (r + i) = T.cols + i by omega]
      refine ⟨_, setRow_ok U _ _ (by rw [q1]; omega), q1, q2, ?_, ?_⟩
      · intro l hl b hb
        simp only
        rw [if_neg (by omega)]; exact q3 l hl b hb
      · intro k hk b hb
        simp only
        by_cases hki : k = i
        · subst hki
          rw [if_pos ⟨rfl, by rw [q2]; exact hb⟩]
        · rw [if_neg (by omega)]; exact q4 k (by omega) b hb)
  exact ⟨U2, e2, by rw [q1]; omega, q2, q3, q4⟩

/-- `(T | J) U` entry by entry. -/
theorem augment_mul_apply {R : Type} [CommRing R] (T U : CMat R) (B : List Nat) (a : Fin T.rows)
    (b : Fin T.rows) :
    (augment (toMat T T.rows T.cols) B * toMat U (T.cols + B.length) T.rows) a b
      = ∑ l ∈ range T.cols, T.e a l * U.e l b
        + ∑ k ∈ range B.length, (if a.val = B.getD k 0 then U.e (T.cols + k) b else 0) := by
  rw [Matrix.mul_apply]
  have : ∀ j : Fin (T.cols + B.length), augment (toMat T T.rows T.cols) B a j
      * toMat U (T.cols + B.length) T.rows j b
      = (fun j : Nat => (if j < T.cols then T.e a j else if a.val = B.getD (j - T.cols) 0 then 1 else 0)
        * U.e j b) j := by
    intro j
    simp only [augment, toMat]
    by_cases hj : j.val < T.cols
    · rw [dif_pos hj, if_pos hj]
    · rw [dif_neg hj, if_neg hj]
  rw [Finset.sum_congr rfl (fun j _ => this j)]
  rw [← Finset.sum_range (fun j : Nat => (if j < T.cols then T.e a j else
    if a.val = B.getD (j - T.cols) 0 then 1 else 0) * U.e j b), Finset.sum_range_add]
  congr 1
  · refine Finset.sum_congr rfl (fun l hl => ?_)
    rw [if_pos (Finset.mem_range.1 hl)]
  · refine Finset.sum_congr rfl (fun k hk => ?_)
    rw [if_neg (by omega), show T.cols + k - T.cols = k by omega]
    split <;> simp

theorem solveSystemZZp_ok [DecidableEq F] (la : LinAlg F) (hla : LinAlgOK la) (flint : Bool) (T : CMat F) :
    ∃ B U, solveSystemZZp la flint T = .ok (B, U) ∧ Solves T B U ∧
      B.length + (toMat T T.rows T.cols).rank = T.rows ∧
      (∀ b, b ∈ B ↔ b < T.rows ∧ ∃ a : Nat → F, ∀ j, j < T.cols →
        T.e b j = ∑ l ∈ range b, a l * T.e l j) ∧
      ∀ x β : Nat → F, (∀ a, a < T.rows → ∑ l ∈ range T.cols, T.e a l * x l
        + ∑ k ∈ range B.length, (if a = B.getD k 0 then β k else 0) = 0) →
        ∀ k, k < B.length → β k = 0 := by
  unfold solveSystemZZp
  by_cases hn : T.cols = 0
  · rw [if_pos hn]
    have hg : ∀ k, k < T.rows → (List.range T.rows).getD k 0 = k := by
      intro k hk
      rw [List.getD_eq_getElem?_getD, List.getElem?_range hk]; rfl
    refine ⟨_, _, rfl, ⟨List.pairwise_lt_range, fun b hb => List.mem_range.1 hb, ?_, rfl, ?_⟩, ?_,
      fun b => ?_, ?_⟩
    · simp [CMat.one, CMat.mk', hn]
    · ext a b
      rw [augment_mul_apply, hn, Finset.range_zero, Finset.sum_empty, zero_add, List.length_range,
        Matrix.one_apply, Finset.sum_eq_single a.val]
      · rw [hg a a.isLt, if_pos rfl]
        simp [CMat.one, CMat.mk', Fin.ext_iff]
      · intro k hk hne
        rw [hg k (Finset.mem_range.1 hk), if_neg (Ne.symm hne)]
      · intro hh; exact absurd (Finset.mem_range.2 a.isLt) hh
    · have : (toMat T T.rows T.cols).rank ≤ T.cols := Matrix.rank_le_width _
      rw [List.length_range]; omega
    · rw [List.mem_range]
      exact ⟨fun hb => ⟨hb, fun _ => 0, by omega⟩, fun hb => hb.1⟩
    · intro x β H k hk
      rw [List.length_range] at hk
      have := H k hk
      rw [hn, Finset.range_zero, Finset.sum_empty, zero_add, List.length_range,
        Finset.sum_eq_single k, hg k hk, if_pos rfl] at this
      · exact this
      · intro k' hk' hne
        rw [hg k' (Finset.mem_range.1 hk'), if_neg (Ne.symm hne)]
      · intro hh; exact absurd (Finset.mem_range.2 hk) hh
  · rw [if_neg hn]
    obtain ⟨c, h⟩ := hla.gauss T
    obtain ⟨c', h'⟩ := hla.gauss T.tr
    have hr1 := echelon_rank h
    have hr2 : (toMat T T.rows T.cols).transpose.rank = (la.gauss T.tr).2 := echelon_rank h'
    rw [Matrix.rank_transpose, hr1] at hr2
    rw [← hr2] at h' ⊢
    generalize (la.gauss T).2 = r at *
    generalize (la.gauss T).1 = E at *
    generalize (la.gauss T.tr).1 = E' at *
    have hrn : r ≤ T.cols := by rw [← hr1]; exact Matrix.rank_le_width _
    rw [pivotCols_ok h, Res.bind_ok]
    simp only [List.length_map, List.length_range, decide_true, Bool.or_true, check_true, Res.bind_ok]
    rw [show T.rows = T.tr.cols from rfl, nonPivots_ok h', Res.bind_ok]
    rw [show T.tr.cols = T.rows from rfl]
    set B := npBelow r c' T.rows with hB
    have hlen : B.length + r = T.rows := npBelow_length r c' _ h'.mono (fun i hi => h'.lt i hi)
    obtain ⟨Z, eZ, z1, z2, z3⟩ := hla.inv (solveY T ((List.range r).map c) B r) T.rows rfl rfl
      (solveY_det h h' B hB)
    rw [eZ, Res.bind_ok]
    obtain ⟨U, eU, u1, u2, u3, u4⟩ := solveU_ok (Z := Z) h hrn
    rw [eU, Res.bind_ok]
    refine ⟨B, U, rfl, ⟨npBelow_sorted _ _ _, fun b hb => ?_, by omega, u2, ?_⟩, by omega,
      fun b => ?_, ?_⟩
    · rw [hB, npBelow_mem] at hb; exact hb.1
    · ext a b
      rw [augment_mul_apply, ← z3, Matrix.mul_apply]
      rw [show (∑ j : Fin T.rows, toMat (solveY T ((List.range r).map c) B r) T.rows T.rows a j
          * toMat Z T.rows T.rows j b)
        = ∑ i ∈ range T.rows, (solveY T ((List.range r).map c) B r).e a i * Z.e i b by
          rw [Finset.sum_range]; rfl]
      rw [solveY_sum T r c B hlen (fun i => Z.e i b) a a.isLt, sum_pivots h]
      congr 1
      · refine Finset.sum_congr rfl (fun l hl => ?_)
        rw [u3 l (Finset.mem_range.1 hl) b b.isLt]
      · refine Finset.sum_congr rfl (fun k hk => ?_)
        rw [u4 k (by have := Finset.mem_range.1 hk; omega) b b.isLt]
    · rw [hB, npBelow_mem]
      constructor
      · rintro ⟨hb, hne⟩
        exact ⟨hb, (pivot_iff h' b hb).1 hne⟩
      · rintro ⟨hb, hd⟩
        exact ⟨hb, (pivot_iff h' b hb).2 hd⟩
    · intro x β H
      exact (complement h' B hB x β H).2

end Verif
