import Verif.Spec.DeRham
import Verif.Lemmas.DeRham
import Mathlib.LinearAlgebra.Matrix.Notation

/-!
A solver used in the examples only: it looks for columns with a single entry, which is enough for
Fermat hypersurfaces.  It meets the contract `SolverOK` on every matrix and can be evaluated.
-/

namespace Verif

open Spec

variable {R : Type} [CommRing R] [DecidableEq R]

/-- A column whose only non-zero entry, an invertible one, is in row `r`. -/
def monoPivot (inv : R → Option R) (T : CMat R) (r : Nat) : Option (Nat × R) :=
  (List.range T.cols).findSome? (fun c =>
    if (List.range T.rows).all (fun r' => decide (r' = r ∨ T.e r' c = 0)) then
      (inv (T.e r c)).map (fun x => (c, x))
    else none)

/-- The rows without such a column. -/
def monoRows (inv : R → Option R) (T : CMat R) : List Nat :=
  (List.range T.rows).filter (fun r => (monoPivot inv T r).isNone)

/-- The solver. -/
def monoSolver (inv : R → Option R) : Solver R := fun T =>
  .ok (monoRows inv T, CMat.mk' (T.cols + (monoRows inv T).length) T.rows (fun x r =>
    match monoPivot inv T r with
    | some (c, y) => if x = c then y else 0
    | none => if x = T.cols + (monoRows inv T).idxOf r then 1 else 0))

theorem monoPivot_spec {inv : R → Option R} (hinv : ∀ x y, inv x = some y → x * y = 1) {T : CMat R}
    {r c : Nat} {y : R} (h : monoPivot inv T r = some (c, y)) :
    c < T.cols ∧ T.e r c * y = 1 ∧ ∀ r', r' < T.rows → r' ≠ r → T.e r' c = 0 := by
  rw [monoPivot, List.findSome?_eq_some_iff] at h
  obtain ⟨l1, c', l2, e, h, -⟩ := h
  split at h
  · rename_i hall
    rw [Option.map_eq_some_iff] at h
    obtain ⟨x, hx, hcx⟩ := h
    have hc : c' = c := congrArg Prod.fst hcx
    have hy : x = y := congrArg Prod.snd hcx
    subst hc hy
    refine ⟨?_, hinv _ _ hx, fun r' hr' hne => ?_⟩
    · have : c' ∈ List.range T.cols := by rw [e]; simp
      exact List.mem_range.1 this
    · have := List.all_eq_true.1 hall r' (List.mem_range.2 hr')
      have := of_decide_eq_true this
      tauto
  · cases h

theorem monoSolver_ok {inv : R → Option R} (hinv : ∀ x y, inv x = some y → x * y = 1) :
    SolverOK (monoSolver inv) := by
  intro T
  have hB : ∀ r, r ∈ monoRows inv T ↔ r < T.rows ∧ monoPivot inv T r = none := by
    intro r
    rw [monoRows, List.mem_filter, List.mem_range, Option.isNone_iff_eq_none]
  refine ⟨_, _, rfl, ?_, ?_, rfl, rfl, ?_⟩
  · exact List.Pairwise.filter _ (List.pairwise_lt_range (n := T.rows))
  · intro b hb; exact ((hB b).1 hb).1
  · ext i r
    rw [Matrix.mul_apply, Matrix.one_apply]
    have hr := r.isLt
    have key : ∀ x : Nat, x < T.cols + (monoRows inv T).length →
        (∀ z : Fin (T.cols + (monoRows inv T).length), z.val ≠ x →
          (CMat.mk' (T.cols + (monoRows inv T).length) T.rows (fun x r =>
            match monoPivot inv T r with
            | some (c, y) => if x = c then y else 0
            | none => if x = T.cols + (monoRows inv T).idxOf r then 1 else 0)).e z.val r.val = 0) →
        ∀ (hx : x < T.cols + (monoRows inv T).length),
        ∑ z : Fin (T.cols + (monoRows inv T).length), augment (toMat T T.rows T.cols) (monoRows inv T) i z
          * toMat (CMat.mk' (T.cols + (monoRows inv T).length) T.rows (fun x r =>
            match monoPivot inv T r with
            | some (c, y) => if x = c then y else 0
            | none => if x = T.cols + (monoRows inv T).idxOf r then 1 else 0))
              (T.cols + (monoRows inv T).length) T.rows z r
          = augment (toMat T T.rows T.cols) (monoRows inv T) i ⟨x, hx⟩
            * (CMat.mk' (T.cols + (monoRows inv T).length) T.rows (fun x r =>
            match monoPivot inv T r with
            | some (c, y) => if x = c then y else 0
            | none => if x = T.cols + (monoRows inv T).idxOf r then 1 else 0)).e x r.val := by
      intro x _ hz hx
      rw [Finset.sum_eq_single ⟨x, hx⟩]
      · rfl
      · intro z _ hne
        rw [toMat, hz z (fun h => hne (Fin.ext h)), mul_zero]
      · intro h; exact absurd (Finset.mem_univ _) h
    cases hp : monoPivot inv T r.val with
    | none =>
      have hmem := (hB r.val).2 ⟨hr, hp⟩
      have hidx := List.idxOf_lt_length_iff.2 hmem
      rw [key (T.cols + (monoRows inv T).idxOf r.val) (by omega) (by
        intro z hz
        simp only [CMat.mk', hp, if_pos (And.intro z.isLt hr)]
        exact if_neg hz) (by omega)]
      rw [augment, dif_neg (by simp)]
      simp only [CMat.mk', hp, Nat.add_sub_cancel_left]
      rw [getD_getElem _ _ _ hidx, List.getElem_idxOf hidx]
      simp [hidx, Fin.ext_iff]
    | some cy =>
      obtain ⟨c, y⟩ := cy
      obtain ⟨h1, h2, h3⟩ := monoPivot_spec hinv hp
      rw [key c (by omega) (by
        intro z hz
        simp only [CMat.mk', hp, if_pos (And.intro z.isLt hr)]
        exact if_neg hz) (by omega)]
      rw [augment, dif_pos (by simpa using h1)]
      have hlt : c < T.cols + (monoRows inv T).length := by omega
      simp only [CMat.mk', hp, hlt, hr, and_self, if_true, toMat]
      by_cases hir : i = r
      · rw [if_pos hir, hir]; exact h2
      · rw [if_neg hir, h3 i.val i.isLt (fun h => hir (Fin.ext h)), zero_mul]

/-- Inverses modulo `N`, for the examples. -/
def zmodInv (N : Nat) (x : ZMod N) : Option (ZMod N) := if x * x⁻¹ = 1 then some x⁻¹ else none

theorem zmodInv_ok (N : Nat) (x y : ZMod N) (h : zmodInv N x = some y) : x * y = 1 := by
  rw [zmodInv] at h
  split at h
  · cases h; assumption
  · cases h

end Verif
