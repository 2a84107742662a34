import Verif.Spec.SolveUnique
import Verif.Lemmas.Padic
import Verif.Lemmas.SolveSystem3

/-!
The matrix `U` of `solve_system` is determined: it is the inverse of a square matrix on the pivot columns and
the unit vectors, and zero elsewhere.
-/

namespace Verif

open Spec Finset

/-- Nothing is stored outside the dimensions of the matrix. -/
def CMat.Normal {R : Type} [Zero R] (A : CMat R) : Prop := ∀ i j, ¬ (i < A.rows ∧ j < A.cols) → A.e i j = 0

theorem CMat.normal_mk' {R : Type} [Zero R] (r c : Nat) (f : Nat → Nat → R) : (CMat.mk' r c f).Normal := by
  intro i j h
  exact if_neg h

theorem CMat.normal_ext {R : Type} [Zero R] {A B : CMat R} (hA : A.Normal) (hB : B.Normal)
    (hr : A.rows = B.rows) (hc : A.cols = B.cols) (h : ∀ i j, i < A.rows → j < A.cols → A.e i j = B.e i j) :
    A = B := by
  obtain ⟨r, c, e⟩ := A
  obtain ⟨r', c', e'⟩ := B
  simp only at hr hc h
  subst hr hc
  congr 1
  funext i j
  by_cases hij : i < r ∧ j < c
  · exact h i j hij.1 hij.2
  · rw [show e i j = 0 from hA i j hij, show e' i j = 0 from hB i j hij]

/-- Two solutions using the same columns of `T` are equal: with the rows put together they are the inverse of a
square matrix. -/
theorem solves_unique {R : Type} [CommRing R] {T U U' : CMat R} {B : List Nat} {r : Nat} {c : Nat → Nat}
    (hinj : ∀ i j, i < r → j < r → c i = c j → i = j) (hlt : ∀ i, i < r → c i < T.cols)
    (hlen : r + B.length = T.rows) (h : Solves T B U) (h' : Solves T B U')
    (hz : ∀ l, l < T.cols → (∀ i, i < r → c i ≠ l) → ∀ b, b < T.rows → U.e l b = 0)
    (hz' : ∀ l, l < T.cols → (∀ i, i < r → c i ≠ l) → ∀ b, b < T.rows → U'.e l b = 0)
    (i b : Nat) (hi : i < T.cols + B.length) (hb : b < T.rows) : U.e i b = U'.e i b := by
  set Y : Matrix (Fin T.rows) (Fin T.rows) R := fun a j =>
    if j.val < r then T.e a (c j) else if a.val = B.getD (j.val - r) 0 then 1 else 0 with hY
  have key : ∀ V : CMat R, Solves T B V →
      (∀ l, l < T.cols → (∀ i, i < r → c i ≠ l) → ∀ b, b < T.rows → V.e l b = 0) →
      Y * Matrix.of (fun j b : Fin T.rows => if j.val < r then V.e (c j) b else V.e (T.cols + (j.val - r)) b) = 1 := by
    intro V hV hzV
    rw [← hV.eq]
    ext a b
    rw [augment_mul_apply, Matrix.mul_apply]
    have e1 : ∀ j : Fin T.rows, Y a j * Matrix.of (fun j b : Fin T.rows =>
          if j.val < r then V.e (c j) b else V.e (T.cols + (j.val - r)) b) j b
        = (fun j : Nat => (if j < r then T.e a (c j) else if a.val = B.getD (j - r) 0 then 1 else 0)
          * (if j < r then V.e (c j) b else V.e (T.cols + (j - r)) b)) j.val := fun j => rfl
    rw [Finset.sum_congr rfl (fun j _ => e1 j), ← Finset.sum_range (fun j : Nat =>
      (if j < r then T.e a (c j) else if a.val = B.getD (j - r) 0 then 1 else 0)
          * (if j < r then V.e (c j) b else V.e (T.cols + (j - r)) b)), 
      show range T.rows = range (r + B.length) by rw [hlen], Finset.sum_range_add]
    congr 1
    · have e2 : ∑ l ∈ range T.cols, T.e a l * V.e l b = ∑ l ∈ (range r).image c, T.e a l * V.e l b := by
        refine (Finset.sum_subset ?_ ?_).symm
        · intro l hl
          obtain ⟨i, hi, rfl⟩ := Finset.mem_image.1 hl
          exact Finset.mem_range.2 (hlt i (Finset.mem_range.1 hi))
        · intro l hl hl'
          rw [hzV l (Finset.mem_range.1 hl) (fun i hi he =>
            hl' (Finset.mem_image.2 ⟨i, Finset.mem_range.2 hi, he⟩)) b b.isLt, mul_zero]
      rw [e2, Finset.sum_image (fun x hx y hy he =>
        hinj x y (Finset.mem_range.1 hx) (Finset.mem_range.1 hy) he)]
      refine Finset.sum_congr rfl (fun j hj => ?_)
      have hj := Finset.mem_range.1 hj
      rw [if_pos hj, if_pos hj]
    · refine Finset.sum_congr rfl (fun k _ => ?_)
      have hk : ¬ r + k < r := by omega
      rw [if_neg hk, if_neg hk, Nat.add_sub_cancel_left]
      split <;> simp
  have h1 := key U h hz
  have h2 := key U' h' hz'
  have h3 := left_inv_eq_right_inv (mul_eq_one_comm.1 h1) h2
  have h4 : ∀ j (hj : j < T.rows), (if j < r then U.e (c j) b else U.e (T.cols + (j - r)) b)
      = if j < r then U'.e (c j) b else U'.e (T.cols + (j - r)) b := fun j hj =>
    congrFun (congrFun h3 ⟨j, hj⟩) ⟨b, hb⟩
  by_cases hic : i < T.cols
  · by_cases hp : ∃ j, j < r ∧ c j = i
    · obtain ⟨j, hj, rfl⟩ := hp
      have := h4 j (by omega)
      rwa [if_pos hj, if_pos hj] at this
    · have hp' : ∀ j, j < r → c j ≠ i := fun j hj he => hp ⟨j, hj, he⟩
      rw [hz i hic hp' b hb, hz' i hic hp' b hb]
  · have := h4 (r + (i - T.cols)) (by omega)
    rw [if_neg (by omega), if_neg (by omega), show T.cols + (r + (i - T.cols) - r) = i by omega] at this
    exact this

theorem setRow_normal {R : Type} [Zero R] {U U' : CMat R} {a : Nat} {f : Nat → R} (h : U.Normal)
    (e : U.setRow a f = .ok U') : U'.Normal := by
  rw [CMat.setRow] at e
  split at e
  · rename_i ha
    cases e
    intro i j hij
    simp only at hij ⊢
    rw [if_neg (by rintro ⟨rfl, hj⟩; exact hij ⟨ha, hj⟩)]
    exact h i j hij
  · cases e

theorem solveU_normal {F : Type} [Field F] {T Z U : CMat F} {piv : List Nat} {rank : Nat}
    (e : solveU T Z piv rank = .ok U) : U.Normal := by
  have keep : ∀ (n : Nat) (g : Nat → Nat) (v : Nat → Nat → F) (s s' : CMat F), s.Normal →
      forRange n s (fun i U => U.setRow (g i) (v i)) = .ok s' → s'.Normal := by
    intro n g v
    induction n with
    | zero => intro s s' hs e; cases e; exact hs
    | succ n ih =>
      intro s s' hs e
      rw [forRange, Res.bind_eq_ok] at e
      obtain ⟨s1, e1, e2⟩ := e
      exact setRow_normal (ih _ _ hs e1) e2
  unfold solveU at e
  simp only at e
  rw [Res.bind_eq_ok] at e
  obtain ⟨U1, e1, e2⟩ := e
  exact keep _ _ _ _ _ (keep _ _ _ _ _ (CMat.normal_mk' _ _ _) e1) e2

/-- `solve_system` over a field: which columns are used. -/
theorem solveSystemZZp_reduced {F : Type} [Field F] [DecidableEq F] (la : LinAlg F) (hla : LinAlgOK la)
    (flint : Bool) (T : CMat F) :
    ∃ (B : List Nat) (U : CMat _) (r : Nat) (c : Nat → Nat), solveSystemZZp la flint T = .ok (B, U) ∧ ReducedSolution T T B U ∧ U.Normal ∧
      (∀ i j, i < r → j < r → c i = c j → i = j) ∧ (∀ i, i < r → c i < T.cols) ∧ r + B.length = T.rows ∧
      (∀ b, b ∈ B ↔ b < T.rows ∧ DependentRow T b) ∧
      ∀ l, l < T.cols → ((∀ i, i < r → c i ≠ l) ↔ DependentCol T l) := by
  obtain ⟨B, U, e, hs, hlen, hb, -⟩ := solveSystemZZp_ok la hla flint T
  by_cases hn : T.cols = 0
  · have e' := e
    rw [solveSystemZZp, if_pos hn] at e'
    cases e'
    refine ⟨_, _, 0, fun _ => 0, e, ⟨hs, by omega⟩, CMat.normal_mk' _ _ _, by omega, by omega, by simp, hb,
      by omega⟩
  · have e' := e
    rw [solveSystemZZp, if_neg hn] at e'
    obtain ⟨c, h⟩ := hla.gauss T
    obtain ⟨c', h'⟩ := hla.gauss T.tr
    have hr1 := echelon_rank h
    have hr2 : (toMat T T.rows T.cols).transpose.rank = (la.gauss T.tr).2 := echelon_rank h'
    rw [Matrix.rank_transpose, hr1] at hr2
    have hrn : (la.gauss T).2 ≤ T.cols := by rw [← hr1]; exact Matrix.rank_le_width _
    rw [pivotCols_ok h, Res.bind_ok, ← hr2, Res.bind_eq_ok] at e'
    obtain ⟨-, -, e'⟩ := e'
    rw [Res.bind_eq_ok] at e'
    obtain ⟨B', -, e'⟩ := e'
    rw [Res.bind_eq_ok] at e'
    obtain ⟨Z, -, e'⟩ := e'
    rw [Res.bind_eq_ok] at e'
    obtain ⟨U', eU, e'⟩ := e'
    cases e'
    obtain ⟨U1, eU1, -, -, u3, -⟩ := solveU_ok (Z := Z) h hrn
    rw [eU] at eU1
    cases eU1
    refine ⟨_, _, _, c, e, ⟨hs, ?_⟩, solveU_normal eU, fun i j hi hj => h.inj hi hj, h.lt, by omega, hb,
      fun l hl => pivot_iff h l hl⟩
    intro l hl hd b hb
    rw [u3 l hl b hb]
    refine Finset.sum_eq_zero (fun i hi => if_neg ((pivot_iff h l hl).2 hd i (Finset.mem_range.1 hi)))

/-! ### the lifting keeps the zero rows -/

theorem newtonStep_row {R : Type} [CommRing R] (X U : CMat R) (l : Nat) (h : ∀ b, U.e l b = 0) (b : Nat) :
    (newtonStep X U).e l b = 0 := by
  simp only [newtonStep, CMat.mk']
  split
  · rw [h b, sumLoop_eq_sum, Finset.sum_eq_zero]
    · simp
    · intro k _
      rw [h k, zero_mul]
  · rfl

theorem newtonLift_row {R : Type} [CommRing R] (X : CMat R) (prec l : Nat) : ∀ (fuel j : Nat) (U : CMat R),
    (∀ b, U.e l b = 0) → ∀ b, (newtonLift X prec fuel j U).e l b = 0
  | 0, _, _, h => h
  | fuel + 1, j, U, h => by
    rw [newtonLift]
    split
    · exact newtonLift_row X prec l fuel _ _ (newtonStep_row X U l h)
    · exact h

theorem newtonLiftZ_row (X : CMat Int) (prec l : Nat) : ∀ (fuel j : Nat) (m : Int) (U : CMat Int),
    (∀ b, U.e l b = 0) → ∀ b, (newtonLiftZ X prec fuel j m U).e l b = 0
  | 0, _, _, _, h => h
  | fuel + 1, j, m, U, h => by
    rw [newtonLiftZ]
    split
    · simp only
      split
      · refine newtonLiftZ_row X prec l fuel _ _ _ (fun b => ?_)
        simp only [CMat.mk']
        split
        · rw [newtonStep_row X U l h]; rfl
        · rfl
      · exact newtonLiftZ_row X prec l fuel _ _ _ (newtonStep_row X U l h)
    · exact h

theorem newtonLift_normal {R : Type} [CommRing R] (X : CMat R) (prec : Nat) : ∀ (fuel j : Nat) (U : CMat R),
    U.Normal → (newtonLift X prec fuel j U).Normal
  | 0, _, _, h => h
  | fuel + 1, j, U, h => by
    rw [newtonLift]
    split
    · exact newtonLift_normal X prec fuel _ _ (CMat.normal_mk' _ _ _)
    · exact h

/-- `solve_system_padic`: which columns are used. -/
theorem solveSystemPadic_reduced {p N : Nat} [Fact p.Prime] (la : LinAlg (ZMod p)) (hla : LinAlgOK la)
    (flint : Bool) (T : CMat (ZMod (p ^ N))) (precision : Nat) (hprec : N ≤ precision) :
    ∃ (B : List Nat) (U : CMat _) (r : Nat) (c : Nat → Nat), solveSystemPadic la flint T precision = .ok (B, U) ∧
      ReducedSolution (T.map (fun x => (x.val : ZMod p))) T B U ∧ U.Normal ∧
      (∀ i j, i < r → j < r → c i = c j → i = j) ∧ (∀ i, i < r → c i < T.cols) ∧ r + B.length = T.rows ∧
      (∀ b, b ∈ B ↔ b < T.rows ∧ DependentRow (T.map (fun x => (x.val : ZMod p))) b) ∧
      ∀ l, l < T.cols → ((∀ i, i < r → c i ≠ l) ↔ DependentCol (T.map (fun x => (x.val : ZMod p))) l) := by
  have : NeZero p := ⟨(Fact.out (p := p.Prime)).ne_zero⟩
  obtain ⟨B, U, e, hs, -⟩ := solveSystemPadic_ok la hla flint T precision hprec
  have e' := e
  rw [solveSystemPadic] at e'
  by_cases hn : T.cols = 0
  · rw [if_pos hn] at e'
    cases e'
    refine ⟨_, _, 0, fun _ => 0, e, ⟨hs, by omega⟩, CMat.normal_mk' _ _ _, by omega, by omega, by simp, ?_,
      by omega⟩
    intro b
    rw [List.mem_range]
    refine ⟨fun hb => ⟨hb, fun _ => 0, fun j hj => ?_⟩, fun h => h.1⟩
    have hj' : j < T.cols := hj
    omega
  · rw [if_neg hn] at e'
    obtain ⟨B', UFp, r, c, eF, hF, hFn, i1, i2, i3, i4, i5⟩ :=
      solveSystemZZp_reduced la hla true (T.map (fun x => (x.val : ZMod p)))
    rw [eF, Res.bind_ok] at e'
    simp only at e'
    have hrow : ∀ l, l < T.cols → DependentCol (T.map (fun x => (x.val : ZMod p))) l → ∀ b, UFp.e l b = 0 := by
      intro l hl hd b
      by_cases hb : b < T.rows
      · exact hF.zero l hl hd b hb
      · exact hFn l b (fun hh => hb (by have := hh.2; rw [hF.solves.cols] at this; exact this))
    split at e'
    · cases e'
      refine ⟨_, _, r, c, e, ⟨hs, ?_⟩, CMat.normal_mk' _ _ _, i1, i2, i3, i4, i5⟩
      intro l hl hd b hb
      simp only [CMat.map, CMat.mk']
      split
      · rw [show ((0 : ZMod (p ^ N))) = ((0 : Int) : ZMod (p ^ N)) by simp]
        congr 1
        refine newtonLiftZ_row _ _ l _ _ _ _ (fun b' => ?_) b
        simp only [CMat.map, CMat.mk']
        rw [hrow l hl hd b']
        simp
      · rfl
    · cases e'
      refine ⟨_, _, r, c, e, ⟨hs, ?_⟩, newtonLift_normal _ _ _ _ _ (CMat.normal_mk' _ _ _), i1, i2, i3, i4, i5⟩
      intro l hl hd b hb
      refine newtonLift_row _ _ l _ _ _ (fun b' => ?_) b
      simp only [CMat.map, CMat.mk']
      rw [hrow l hl hd b']
      simp

end Verif
