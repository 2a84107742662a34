import Verif.Lemmas.FiniteDiff
import Mathlib.Tactic.IntervalCases

/-!
Property C36: the finite differences of `finitediff_flint_nmod` (`dr_nd/dr_nd.cc:1858-1991`).
-/

namespace Verif

open Spec

/-- **C36 (partial).**  For every matrix polynomial `M(Y) = Σ_{i<len} Y^i M_i` of `d × d` matrices with entries in
`[0, q)`, not all zero, every `k` with `len - 1 < k <= q` and every `G` with entries in `[0, q)`: if the nonzero
entries are nested (`NestedSupport`), then `finitediff_flint_nmod` returns `M(0) M(1) ... M(k-1) G` modulo `q`,
entries in `[0, q)`, and the closing assertion holds.

The full claim has no hypothesis on the entries.  It is false without nesting (`C36_wrong`), and when all the
matrices are zero the function reads outside its arrays (`C36_all_zero`).  `k <= q` is the condition of
`nmod_pow_ui` on its base. -/
theorem C36_nested_partial {q : Nat} [NeZero q] {d len k : Nat} (hl : 1 ≤ len) (g : Nat → Nat → Nat → Int)
    (hr : ∀ i, i < len → ∀ r c, r < d → c < d → 0 ≤ g i r c ∧ g i r c < q)
    (hne : ∃ i, i < len ∧ ∃ r c, r < d ∧ c < d ∧ g i r c ≠ 0)
    (hnest : NestedSupport d len (fun i => CMat.mk' d d (g i))) (hk : len ≤ k) (hkq : k ≤ q)
    (G : CVec Int) (hG : G.len = d) (hGr : Reduced q G) :
    ∃ H, finiteDiff q (fun i => CMat.mk' d d (g i)) len k G = .ok H ∧ H.len = d ∧ Reduced q H ∧
      ∀ r : Fin d, ((H.e r : Int) : ZMod q) = evalProd d len
        (fun i => CMat.mk' d d (fun r c => ((g i r c : Int) : ZMod q))) k (fun i => ((G.e i : Int) : ZMod q)) r := by
  have h := finiteDiff_ok (q := q) hl (fun i _ => rfl) hr hk hkq hne hnest hG (fun i hi => hGr i (by omega))
  refine ⟨_, h, ?_, fromNmod_congr.2, fun r => ?_⟩
  · exact evalRun_len rfl
  · have hlen := evalRun_len (q := q) (d := d) (len := len) (g := fun i r c => ((g i r c : Int) : ZMod q)) (lo := 0) (k := k)
      (H := CVec.mk' d (fun i => ((G.e i : Int) : ZMod q))) rfl
    rw [fromNmod_congr.1.2 r (by rw [hlen]; exact r.isLt),
      evalRun_eq (M := fun i => CMat.mk' d d (fun r c => ((g i r c : Int) : ZMod q)))
        (fun i _ r c hr hc => CMat.mk'_e _ hr hc), evalProd, evalProd]
    congr 1
    congr 1
    funext i
    exact mk'_e_of_lt _ i.isLt

/-- **C36 (degree at most one).**  Polynomials `M_0 + Y M_1`, not zero, need no condition on the supports. -/
theorem C36_degree_one {q : Nat} [NeZero q] {d len k : Nat} (hl : 1 ≤ len) (g : Nat → Nat → Nat → Int)
    (hr : ∀ i, i < len → ∀ r c, r < d → c < d → 0 ≤ g i r c ∧ g i r c < q)
    (hone : ∀ i, 2 ≤ i → i < len → ∀ r c, r < d → c < d → g i r c = 0)
    (hne : ∃ i, i < len ∧ ∃ r c, r < d ∧ c < d ∧ g i r c ≠ 0) (hk : len ≤ k) (hkq : k ≤ q)
    (G : CVec Int) (hG : G.len = d) (hGr : Reduced q G) :
    ∃ H, finiteDiff q (fun i => CMat.mk' d d (g i)) len k G = .ok H ∧ H.len = d ∧ Reduced q H ∧
      ∀ r : Fin d, ((H.e r : Int) : ZMod q) = evalProd d len
        (fun i => CMat.mk' d d (fun r c => ((g i r c : Int) : ZMod q))) k (fun i => ((G.e i : Int) : ZMod q)) r := by
  refine C36_nested_partial hl g hr hne ?_ hk hkq G hG hGr
  intro i hi j hj h1 hji r hr' c hc' hz
  have : i = j := by
    by_contra hij
    refine hz ?_
    simp only
    rw [CMat.mk'_e _ hr' hc']
    exact hone i (by omega) hi r c hr' hc'
  subst this
  exact ⟨⟨⟨r, hr'⟩, ⟨c, hc'⟩, le_refl _, hz⟩, ⟨r, hr'⟩, ⟨c, hc'⟩, le_refl _, hz⟩

/-- **C36 (k too small).**  With `k <= n + 1` the first assertion stops the call. -/
theorem C36_assertion (q : Nat) (Ms : Nat → CMat Int) (len : Nat) (k : Int) (hk : k < len) (G : CVec Int) :
    finiteDiff q Ms len k G = .error .assertFail := by
  rw [finiteDiff, decide_eq_false (by omega), check_false]
  rfl

/-- **C36 (all matrices zero).**  The loop that drops zero matrices tests its index after the reads: it reads
`max_row[-1]` when all the matrices are zero. -/
theorem C36_all_zero {q : Nat} [NeZero q] {d len k : Nat} (hl : 1 ≤ len) (hk : len ≤ k) (G : CVec Int)
    (hG : G.len = d) (hGr : Reduced q G) :
    finiteDiff q (fun _ => CMat.mk' d d (fun _ _ => 0)) len k G = .error .ub :=
  finiteDiff_zero hl (fun _ _ => rfl) hk hG (fun i hi => hGr i (by omega))

/-- The coefficients of `M(Y) = 1 + 4 Y^2`, size 1. -/
def exGap (i r c : Nat) : Int := if r = 0 ∧ c = 0 then (if i = 0 then 1 else if i = 2 then 4 else 0) else 0

set_option maxRecDepth 100000 in
/-- **C36 (false in general).**  Modulo 9, with `M(Y) = 1 + 4 Y^2` of size 1, `k = 6` and `G = (1)`: the box of `M_1 = 0`
is empty, so `Mfd[0]` is never updated; the closing assertion still holds and the call returns `4`, while
`M(0) M(1) ... M(5) = 7`.  With `k = 4` the closing assertion fails. -/
theorem C36_wrong :
    ∃ G H : CVec Int, G.len = 1 ∧ Reduced 9 G ∧ finiteDiff 9 (fun i => CMat.mk' 1 1 (exGap i)) 3 6 G = .ok H ∧
      ((H.e 0 : Int) : ZMod 9) ≠ evalProd 1 3 (fun i => CMat.mk' 1 1 (fun r c => ((exGap i r c : Int) : ZMod 9))) 6
        (fun i => ((G.e i : Int) : ZMod 9)) 0 ∧
      finiteDiff 9 (fun i => CMat.mk' 1 1 (exGap i)) 3 4 G = .error .assertFail := by
  have h : (finiteDiff 9 (fun i => CMat.mk' 1 1 (exGap i)) 3 6 (CVec.mk' 1 (fun _ => 1))).map (fun H => H.e 0) = .ok 4 := by
    decide +kernel
  cases e : finiteDiff 9 (fun i => CMat.mk' 1 1 (exGap i)) 3 6 (CVec.mk' 1 (fun _ => 1)) with
  | error x => rw [e] at h; cases h
  | ok H =>
    rw [e] at h
    have h0 : H.e 0 = 4 := Except.ok.inj h
    refine ⟨CVec.mk' 1 (fun _ => 1), H, rfl, ?_, e, ?_, ?_⟩
    · intro i hi
      have hi' : i < 1 := hi
      rw [mk'_e_of_lt _ hi']; omega
    · rw [h0]
      have hev := evalRun_eq (q := 9) (d := 1) (len := 3) (g := fun i r c => ((exGap i r c : Int) : ZMod 9))
        (M := fun i => CMat.mk' 1 1 (fun r c => ((exGap i r c : Int) : ZMod 9))) (fun i _ r c hr hc => CMat.mk'_e _ hr hc) 6
        (CVec.mk' 1 (fun _ => 1)) 0
      have h7 : (evalRun 1 3 (fun i r c => ((exGap i r c : Int) : ZMod 9)) 0 6 (CVec.mk' 1 (fun _ => 1))).e 0 = 7 := by
        simp only [evalRun, evalApply, CVec.mk', Finset.sum_range_succ, Finset.sum_range_zero, exGap]
        decide
      have hg : (fun i => (((CVec.mk' 1 (fun _ => (1 : Int))).e i : Int) : ZMod 9)) = (CVec.mk' 1 (fun _ => (1 : ZMod 9))).e := by
        funext i
        simp only [CVec.mk']
        split <;> simp
      rw [hg]
      refine fun h4 => absurd (h4.trans (hev.symm.trans h7)) (by decide)
    · have h4 : (finiteDiff 9 (fun i => CMat.mk' 1 1 (exGap i)) 3 4 (CVec.mk' 1 (fun _ => 1))).map (fun H => H.e 0)
          = .error .assertFail := by decide +kernel
      cases e4 : finiteDiff 9 (fun i => CMat.mk' 1 1 (exGap i)) 3 4 (CVec.mk' 1 (fun _ => 1)) with
      | ok H => rw [e4] at h4; cases h4
      | error x =>
        rw [e4] at h4
        exact congrArg Except.error (Except.error.inj h4)

/-- The coefficients of a polynomial of degree 2 and size 3 modulo 25, from the cubic of C35. -/
def exNested (i r c : Nat) : Int := match i, r, c with
  | 0, 0, 1 => 15 | 0, 1, 2 => 5 | 0, 2, 0 => 1
  | 1, 0, 1 => 23 | 1, 1, 2 => 17
  | 2, 0, 1 => 14
  | _, _, _ => 0

set_option maxRecDepth 100000 in
/-- Case for `C36_nested_partial`: `exNested` with `k = 8`, and what the call returns.  The lower two coefficients
serve for `C36_degree_one`. -/
example : (∀ i, i < 3 → ∀ r c, r < 3 → c < 3 → 0 ≤ exNested i r c ∧ exNested i r c < (25 : Nat)) ∧
    (∃ i, i < 3 ∧ ∃ r c, r < 3 ∧ c < 3 ∧ exNested i r c ≠ 0) ∧
    NestedSupport 3 3 (fun i => CMat.mk' 3 3 (exNested i)) ∧
    (finiteDiff 25 (fun i => CMat.mk' 3 3 (exNested i)) 3 8 (CVec.mk' 3 (fun _ => 1))).map
      (fun H => (List.range 3).map H.e) = .ok [0, 0, 15] ∧
    (∃ i, i < 2 ∧ ∃ r c, r < 3 ∧ c < 3 ∧ exNested i r c ≠ 0) ∧
    (finiteDiff 25 (fun i => CMat.mk' 3 3 (exNested i)) 2 8 (CVec.mk' 3 (fun _ => 1))).isOk = true := by
  refine ⟨?_, ⟨2, by omega, 0, 1, by omega, by omega, by decide⟩, ?_, by decide +kernel,
    ⟨1, by omega, 0, 1, by omega, by omega, by decide⟩, by decide +kernel⟩
  · have : ∀ i < 3, ∀ r < 3, ∀ c < 3, 0 ≤ exNested i r c ∧ exNested i r c < (25 : Nat) := by decide +kernel
    exact fun i hi r c hr hc => this i hi r hr c hc
  · intro i hi j hj h1 hji r hr c hc
    interval_cases i <;> interval_cases j <;> first | omega | (interval_cases r <;> interval_cases c <;> decide +kernel)

end Verif
