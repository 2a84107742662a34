import Verif.Lemmas.FrobNDTerm
import Verif.Lemmas.PolyCongr

/-!
The condition on the batched reductions of `frob_ND_flint`, for one digit: since `u` counts modulo `p` only, it is a condition on
finitely many matrices.
-/

namespace Verif

open Spec

/-- What the finite differences need from the coefficient matrices. -/
def GoodPolys (dim len : Nat) (P : Nat → CMat Int) : Prop :=
  (∃ i < len, ∃ r < dim, ∃ c < dim, (P i).e r c ≠ 0) ∧ NestedSupport dim len P

theorem getD_mulVec (p : Nat) (w : IVec) (i : Nat) : (mulVec p w).getD i 0 = p * w.getD i 0 := by
  rw [mulVec]
  rcases Nat.lt_or_ge i w.length with h | h
  · simp [List.getD_eq_getElem?_getD, h]
  · simp [List.getD_eq_getElem?_getD, h]

/-- One digit: `u = p w` counts as `0`. -/
theorem flintBatchOK_digit {q p n d : Nat} {solve : Solver (ZMod q)} {N : ND (ZMod q)} (hn : N.n = n) (hd : N.d = d) (hqp : q ∣ p)
    (h0 : ∀ v, IsTuple (n + 1) d v → ∀ poly, getNDPolyZ solve N (List.replicate (n + 1) ((p : Int) * d)) v = .ok poly →
      GoodPolys (d ^ n) (n + 2) poly)
    (h1 : ∀ v, IsTuple (n + 1) d v → (∀ x ∈ v, 0 < x) → ∀ poly, getNDPolyZ solve N v v = .ok poly →
      GoodPolys (d ^ n) (n + 2) poly) :
    FlintBatchOK q p n d solve N := by
  right; right
  intro u v m poly hul hpos hm hv hu e
  rcases hu with ⟨w, -, rfl⟩ | rfl
  · refine h0 v hv poly ?_
    rw [← e]
    refine getNDPolyZ_congr (by rw [List.length_replicate, hul]) ?_ ?_ (fun i hi => ?_)
    · rw [List.sum_replicate, hd]
      exact ⟨(n + 1 : Nat) * p, by simp; ring⟩
    · rw [hm, hd]; exact ⟨m, mul_comm _ _⟩
    · rw [getD_mulVec]
      have hq : (q : Int) ∣ p := Int.natCast_dvd_natCast.2 hqp
      have e1 : (List.replicate (n + 1) ((p : Int) * d)).getD i 0 = p * d := by
        simp [List.getD_eq_getElem?_getD, show i < n + 1 by omega]
      rw [e1]
      exact ((Int.modEq_zero_iff_dvd.2 (hq.mul_right _)).trans (Int.modEq_zero_iff_dvd.2 (hq.mul_right _)).symm)
  · exact h1 u hv hpos poly e

/-- Coefficient matrices written out. -/
abbrev LitPolys := List (List (List Nat))

/-- Entry `(r, c)` of matrix `i`. -/
def litEnt (L : LitPolys) (i r c : Nat) : Nat := ((L.getD i []).getD r []).getD c 0

/-- `get_ND_poly_flint(u, v)` gives the matrices written out. -/
def polyIs {q : Nat} (dim len : Nat) (solve : Solver (ZMod q)) (N : ND (ZMod q)) (t : (IVec × IVec) × LitPolys) : Bool :=
  match getNDPolyZ solve N t.1.1 t.1.2 with
  | .ok P => (List.range len).all (fun i => (List.range dim).all (fun r => (List.range dim).all (fun c =>
      decide ((P i).e r c = ((litEnt t.2 i r c : Nat) : Int)))))
  | .error _ => false

/-- The condition on matrices written out. -/
def litGood (dim len : Nat) (L : LitPolys) : Bool :=
  (List.range len).any (fun i => (List.range dim).any (fun r => (List.range dim).any (fun c => litEnt L i r c != 0))) &&
  (List.range len).all (fun i => (List.range len).all (fun j => !decide (1 ≤ j) || !decide (j ≤ i) ||
    (List.range dim).all (fun r => (List.range dim).all (fun c => (litEnt L i r c == 0) ||
      ((List.range dim).any (fun r' => decide (r ≤ r') && (List.range dim).any (fun c' => litEnt L j r' c' != 0)) &&
       (List.range dim).any (fun c' => decide (c' ≤ c) && (List.range dim).any (fun r' => litEnt L j r' c' != 0)))))))

theorem goodPolys_of_lit {q dim len : Nat} {solve : Solver (ZMod q)} {N : ND (ZMod q)} {t : (IVec × IVec) × LitPolys}
    (h1 : polyIs dim len solve N t = true) (h2 : litGood dim len t.2 = true) {poly : Nat → CMat Int}
    (e : getNDPolyZ solve N t.1.1 t.1.2 = .ok poly) : GoodPolys dim len poly := by
  rw [polyIs, e] at h1
  simp only [List.all_eq_true, List.mem_range, decide_eq_true_eq] at h1
  have hne : ∀ i r c, i < len → r < dim → c < dim → ((poly i).e r c ≠ 0 ↔ litEnt t.2 i r c ≠ 0) := fun i r c hi hr hc => by
    rw [h1 i hi r hr c hc]; simp
  simp only [litGood, Bool.and_eq_true, List.any_eq_true, List.all_eq_true, List.mem_range, bne_iff_ne, Bool.or_eq_true,
    Bool.not_eq_true', decide_eq_false_iff_not, decide_eq_true_eq, beq_iff_eq] at h2
  obtain ⟨⟨i, hi, r, hr, c, hc, h⟩, h3⟩ := h2
  refine ⟨⟨i, hi, r, hr, c, hc, (hne i r c hi hr hc).2 h⟩, fun i hi j hj h1j hji r hr c hc h => ?_⟩
  have h := (hne i r c hi hr hc).1 h
  rcases h3 i hi j hj with (h4 | h4) | h4
  · exact absurd h1j h4
  · exact absurd hji h4
  · rcases h4 r hr c hc with h5 | ⟨⟨r', hr', hrr, c', hc', h5⟩, c2, hc2, hcc, r2, hr2, h6⟩
    · exact absurd h5 h
    · exact ⟨⟨⟨r', hr'⟩, ⟨c', hc'⟩, hrr, (hne j r' c' hj hr' hc').2 h5⟩, ⟨r2, hr2⟩, ⟨c2, hc2⟩, hcc, (hne j r2 c2 hj hr2 hc2).2 h6⟩

end Verif
