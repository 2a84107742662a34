import Verif.Props.FrobND
import Verif.Props.NDBatch
import Verif.Props.Batch

/-!
# C82: arguments outside the domain of the reductions stop at an assertion

The functions of the de Rham objects check their arguments with `assert`.  For constructed objects: which
arguments pass, and that all the others stop there, before any table is read out of its range.
-/

namespace Verif

open Spec

/-! ### The reductions of `dr` -/

section

variable {R : Type} [CommRing R]

/-- One pass of the loop at the start of the reduction functions. -/
theorem checkUV_pass {u v : IVec} {i : Nat} (hu : i < u.length) (hv : i < v.length) (s : Int) :
    (do let ui ← aget u i
        let vi ← aget v i
        check (decide (ui = 0 ∨ 0 < vi))
        pure (s + vi) : Res Int) =
      if u.getD i 0 = 0 ∨ 0 < v.getD i 0 then .ok (s + v.getD i 0) else .error .assertFail := by
  rw [aget_of_lt u i hu, Res.bind_ok, aget_of_lt v i hv, Res.bind_ok, List.getD_eq_getElem?_getD, List.getD_eq_getElem?_getD,
    List.getElem?_eq_getElem hu, List.getElem?_eq_getElem hv, Option.getD_some, Option.getD_some]
  by_cases h : u[i] = 0 ∨ 0 < v[i]
  · rw [if_pos h, decide_eq_true h, check_true, Res.bind_ok, Res.pure_eq]
  · rw [if_neg h, decide_eq_false h, check_false, Res.bind_error]

/-- The loop at the start of the reduction functions, for vectors of the right length. -/
theorem checkUV_eq {D : DR R} {u v : IVec} (hu : u.length = D.n + 1) (hv : v.length = D.n + 1) :
    checkUV D u v = if (∀ i, ev D.n u i = 0 ∨ 0 < ev D.n v i) ∧ v.sum = D.d then .ok () else .error .assertFail := by
  by_cases h : ∀ i, ev D.n u i = 0 ∨ 0 < ev D.n v i
  · obtain ⟨s, e, hs⟩ := forRange_inv (n := D.n + 1) (s := (0 : Int))
      (f := fun i sum => do
        let ui ← aget u i
        let vi ← aget v i
        check (decide (ui = 0 ∨ 0 < vi))
        pure (sum + vi)) (fun i (s : Int) => s = (v.take i).sum) (by simp) (by
      rintro i s hi rfl
      have h' : u.getD i 0 = 0 ∨ 0 < v.getD i 0 := h ⟨i, hi⟩
      refine ⟨_, by rw [checkUV_pass (by omega) (by omega), if_pos h'], ?_⟩
      rw [List.take_add_one, List.sum_append, List.getD_eq_getElem?_getD, List.getElem?_eq_getElem (by omega)]
      simp)
    rw [List.take_of_length_le (by omega)] at hs
    rw [checkUV, e, Res.bind_ok, hs]
    by_cases hd : v.sum = D.d
    · rw [if_pos ⟨h, hd⟩, decide_eq_true hd, check_true]
    · rw [if_neg (fun h' => hd h'.2), decide_eq_false hd, check_false]
  · rw [if_neg (fun h' => h h'.1), checkUV]
    have hex : ∃ i, i < D.n + 1 ∧ ¬ (u.getD i 0 = 0 ∨ 0 < v.getD i 0) := by
      by_contra hno
      refine h (fun i => ?_)
      by_contra hi
      exact hno ⟨i.val, i.isLt, hi⟩
    obtain ⟨h1, h2⟩ := Nat.find_spec hex
    rw [forRange_error (Nat.find hex) .assertFail h1 (fun _ _ => True) trivial (fun i s hi _ => ?_)
      (fun s _ => by rw [checkUV_pass (by omega) (by omega), if_neg h2]), Res.bind_error]
    have hno := Nat.find_min hex hi
    rw [not_and, not_not] at hno
    exact ⟨_, by rw [checkUV_pass (by omega) (by omega), if_pos (hno (by omega))], trivial⟩

/-- **C82 (`dr`, directions).**  For every object, every `u`, `v` with `n+1` entries, every vector and every number of
steps: when `v` does not have degree `d`, or a nonzero entry of `u` meets an entry of `v` that is not
positive, the reduction matrix, the single reduction and the batched reduction stop at an assertion. -/
theorem C82_direction (solve : Solver R) (D : DR R) (u v : IVec) (hu : u.length = D.n + 1) (hv : v.length = D.n + 1)
    (h : ¬ ((∀ i, ev D.n u i = 0 ∨ 0 < ev D.n v i) ∧ v.sum = D.d)) (G : CVec R) (k : Int) :
    getReductionMatrixJ solve D u v = .error .assertFail ∧ reduceVectorJ solve D u v G = .error .assertFail ∧
      reduceVectorJPoly solve D u v k G = .error .assertFail := by
  have hc : checkUV D u v = .error .assertFail := by rw [checkUV_eq hu hv, if_neg h]
  refine ⟨?_, ?_, ?_⟩
  · rw [getReductionMatrixJ, hc, Res.bind_error]
  · rw [reduceVectorJ, hc, Res.bind_error]
  · rw [reduceVectorJPoly, hc, Res.bind_error]

/-- **C82 (`dr`, over `ZZ`).**  The same for the versions over `ZZ`. -/
theorem C82_direction_ZZ {q : Nat} (solve : Solver (ZMod q)) (D : DR (ZMod q)) (u v : IVec) (hu : u.length = D.n + 1)
    (hv : v.length = D.n + 1) (h : ¬ ((∀ i, ev D.n u i = 0 ∨ 0 < ev D.n v i) ∧ v.sum = D.d)) (G : CVec Int) (k : Int) :
    getReductionMatrixJZ solve D u v = .error .assertFail ∧ reduceVectorJZ solve D u v G = .error .assertFail ∧
      reduceVectorJPolyZ solve D u v k G = .error .assertFail := by
  have hc : checkUV D u v = .error .assertFail := by rw [checkUV_eq hu hv, if_neg h]
  refine ⟨?_, ?_, ?_⟩
  · rw [getReductionMatrixJZ, hc, Res.bind_error]
  · rw [reduceVectorJZ, hc, Res.bind_error]
  · rw [reduceVectorJPolyZ, hc, Res.bind_error]

/-- **C82 (`dr`, exactly these).**  For a constructed object and a direction without negative entries:
`get_reduction_matrix_J` returns a matrix exactly for the pairs that pass, and otherwise stops at an assertion. -/
theorem C82_direction_iff {q : Nat} [NeZero q] {solve : Solver (ZMod q)} {p n d : Nat} {f : MonMap (ZMod q)} {D : DR (ZMod q)}
    (hC : Constructed solve p f n d D) (u v : IVec) (hu : u.length = n + 1) (hv : v.length = n + 1) (hv0 : NonNeg v) :
    ((∃ M, getReductionMatrixJ solve D u v = .ok M) ↔ (∀ i, ev n u i = 0 ∨ 0 < ev n v i) ∧ v.sum = d) ∧
    (getReductionMatrixJ solve D u v = .error .assertFail ↔ ¬ ((∀ i, ev n u i = 0 ∨ 0 < ev n v i) ∧ v.sum = d)) := by
  obtain ⟨h1, h2, -⟩ := hC.init
  have hbad : ¬ ((∀ i, ev n u i = 0 ∨ 0 < ev n v i) ∧ v.sum = d) → getReductionMatrixJ solve D u v = .error .assertFail :=
    fun h => (C82_direction solve D u v (by rw [hu, h1]) (by rw [hv, h1]) (by subst h1 h2; exact h) (CVec.mk' 0 (fun _ => 0)) 0).1
  have hgood : (∀ i, ev n u i = 0 ∨ 0 < ev n v i) ∧ v.sum = d → ∃ M, getReductionMatrixJ solve D u v = .ok M := by
    rintro ⟨h3, h4⟩
    obtain ⟨_, M, -, e, -⟩ := C27_matrix hC u v hu ⟨hv, hv0, h4⟩ h3
    exact ⟨M, e⟩
  refine ⟨⟨?_, hgood⟩, ⟨?_, hbad⟩⟩
  · rintro ⟨M, e⟩
    by_contra h
    rw [hbad h] at e
    cases e
  · intro e h
    obtain ⟨M, e'⟩ := hgood h
    rw [e'] at e
    cases e

/-- **C82 (`monomial_to_basis_J`).**  For a constructed object and any `u` at all, a coordinate vector is returned exactly when
`u` has `n+1` entries, all positive, and degree divisible by `d`; every other call stops at an assertion. -/
theorem C82_monomial_to_basis [Nontrivial R] {solve : Solver R} {p n d : Nat} {f : MonMap R} {D : DR R}
    (hC : Constructed solve p f n d D) (hn : 1 ≤ n) (u : IVec) :
    ((∃ H, monomialToBasisJ solve D u = .ok H) ↔ u.length = n + 1 ∧ (∀ x ∈ u, 0 < x) ∧ (d : Int) ∣ u.sum) ∧
    (monomialToBasisJ solve D u = .error .assertFail ↔ ¬ (u.length = n + 1 ∧ (∀ x ∈ u, 0 < x) ∧ (d : Int) ∣ u.sum)) := by
  obtain ⟨h1, h2, hI⟩ := hC.init
  have hd : D.n < D.d := hI.ok.hd
  have hbad : ¬ (u.length = n + 1 ∧ (∀ x ∈ u, 0 < x) ∧ (d : Int) ∣ u.sum) →
      monomialToBasisJ solve D u = .error .assertFail := by
    intro h
    rw [monomialToBasisJ]
    by_cases a : u.length = D.n + 1
    · rw [decide_eq_true a, check_true, Res.bind_ok]
      by_cases b : ∀ x ∈ u, 0 < x
      · rw [show u.all (fun x => decide (0 < x)) = true from List.all_eq_true.2 (fun x hx => decide_eq_true (b x hx)),
          check_true, Res.bind_ok]
        simp only
        rw [if_neg (by omega), decide_eq_false, check_false, Res.bind_error]
        intro hs
        refine h ⟨by rw [a, h1], b, ?_⟩
        rw [sumVec_eq_sum] at hs
        rw [← h2]
        exact Int.dvd_of_emod_eq_zero hs
      · rw [show u.all (fun x => decide (0 < x)) = false from ?_, check_false, Res.bind_error]
        rw [← Bool.not_eq_true, List.all_eq_true]
        exact fun hx => b (fun x h => of_decide_eq_true (hx x h))
    · rw [decide_eq_false a, check_false, Res.bind_error]
  have hgood : u.length = n + 1 ∧ (∀ x ∈ u, 0 < x) ∧ (d : Int) ∣ u.sum → ∃ H, monomialToBasisJ solve D u = .ok H := by
    rintro ⟨a, b, m, hm⟩
    have hs : 0 ≤ u.sum := List.sum_nonneg (fun x hx => le_of_lt (b x hx))
    have hm0 : 0 ≤ m := by
      by_contra hneg
      have : (d : Int) * m < 0 := mul_neg_of_pos_of_neg (by omega) (by omega)
      omega
    obtain ⟨H, e, -⟩ := C24_monomial_to_basis hC hn u a b m.toNat (by rw [hm, Int.toNat_of_nonneg hm0, mul_comm])
    exact ⟨H, e⟩
  refine ⟨⟨?_, hgood⟩, ⟨?_, hbad⟩⟩
  · rintro ⟨M, e⟩
    by_contra h
    rw [hbad h] at e
    cases e
  · intro e h
    obtain ⟨M, e'⟩ := hgood h
    rw [e'] at e
    cases e

/-- **C82 (`get_final_reduction_matrix_J`).**  For a constructed object: a matrix exactly for `0 < k <= n`, an assertion
otherwise. -/
theorem C82_final [Nontrivial R] {solve : Solver R} {p n d : Nat} {f : MonMap R} {D : DR R}
    (hC : Constructed solve p f n d D) (k : Nat) :
    ((∃ M, finalMatJ solve D k = .ok M) ↔ 0 < k ∧ k ≤ n) ∧
    (finalMatJ solve D k = .error .assertFail ↔ ¬ (0 < k ∧ k ≤ n)) := by
  obtain ⟨h1, -, -⟩ := hC.init
  have hbad : ¬ (0 < k ∧ k ≤ n) → finalMatJ solve D k = .error .assertFail := by
    intro h
    match k with
    | 0 => rfl
    | 1 => rw [finalMatJ, decide_eq_false (by omega), check_false, Res.bind_error]
    | k + 2 => rw [finalMatJ, decide_eq_false (by omega), check_false, Res.bind_error]
  have hgood : 0 < k ∧ k ≤ n → ∃ M, finalMatJ solve D k = .ok M := by
    rintro ⟨a, b⟩
    obtain ⟨_, M, -, e, -⟩ := C23_final_reduction hC k a b
    exact ⟨M, e⟩
  refine ⟨⟨?_, hgood⟩, ⟨?_, hbad⟩⟩
  · rintro ⟨M, e⟩
    by_contra h
    rw [hbad h] at e
    cases e
  · intro e h
    obtain ⟨M, e'⟩ := hgood h
    rw [e'] at e
    cases e

/-- **C82 (`get_inclusion_matrix_J`).**  Degree other than `n`: an assertion. -/
theorem C82_inclusion (D : DR R) (u : IVec) (h : u.sum ≠ D.n) : inclMatJ D u = .error .assertFail := by
  rw [inclMatJ, sumVec_eq_sum, decide_eq_false h, check_false, Res.bind_error]

end

/-! ### The reductions of `dr_nd` -/

section

variable {R : Type} [CommRing R] [DecidableEq R]

/-- The checks of `dr_nd`. -/
theorem checkND_eq {N : ND R} (hd : 0 < N.d) (u v : IVec) :
    checkND N u v = if v.sum = N.d ∧ (N.d : Int) ∣ u.sum then .ok () else .error .assertFail := by
  rw [checkND, sumVec_eq_sum, sumVec_eq_sum]
  by_cases h : v.sum = N.d
  · rw [decide_eq_true h, check_true, Res.bind_ok, if_neg (by omega)]
    by_cases h2 : (N.d : Int) ∣ u.sum
    · rw [if_pos ⟨h, h2⟩, decide_eq_true (Int.emod_eq_zero_of_dvd h2), check_true]
    · rw [if_neg (fun h' => h2 h'.2), decide_eq_false (fun h3 => h2 (Int.dvd_of_emod_eq_zero h3)), check_false]
  · rw [decide_eq_false h, check_false, Res.bind_error, if_neg (fun h' => h h'.1)]

/-- **C82 (`dr_nd`, directions).**  For every object with `d > 0`, every `u` and `v` of any length, every vector and number of
steps: when `v` does not have degree `d` or the degree of `u` is not divisible by `d`, the reduction matrix and
the reductions stop at an assertion. -/
theorem C82_direction_ND (solve : Solver R) (N : ND R) (hd : 0 < N.d) (u v : IVec)
    (h : ¬ (v.sum = N.d ∧ (N.d : Int) ∣ u.sum)) (G : CVec R) (k : Int) :
    getReductionMatrixND solve N u v = .error .assertFail ∧ reduceVectorND solve N u v G = .error .assertFail ∧
      reduceVectorNDPoly solve N u v k G = .error .assertFail := by
  have hc : checkND N u v = .error .assertFail := by rw [checkND_eq hd, if_neg h]
  refine ⟨?_, ?_, ?_⟩
  · rw [getReductionMatrixND, hc, Res.bind_error]
  · rw [reduceVectorND, hc, Res.bind_error]
  · rw [reduceVectorNDPoly, hc, Res.bind_error]

/-- **C82 (`dr_nd`, over `ZZ` and for flint).**  The same over `ZZ`; the batched version and the matrices for flint also
check the lengths of `u` and `v`. -/
theorem C82_direction_ND_ZZ {q : Nat} (solve : Solver (ZMod q)) (N : ND (ZMod q)) (hd : 0 < N.d) (u v : IVec) (G : CVec Int) (k : Int) :
    (¬ (v.sum = N.d ∧ (N.d : Int) ∣ u.sum) →
      getReductionMatrixNDZ solve N u v = .error .assertFail ∧ reduceVectorNDZ solve N u v G = .error .assertFail) ∧
    (¬ (v.length = N.n + 1 ∧ u.length = N.n + 1 ∧ v.sum = N.d ∧ (N.d : Int) ∣ u.sum) →
      getNDPolyZ solve N u v = .error .assertFail ∧ reduceVectorNDPolyZ solve N u v k G = .error .assertFail) := by
  constructor
  · intro h
    have hc : checkND N u v = .error .assertFail := by rw [checkND_eq hd, if_neg h]
    exact ⟨by rw [getReductionMatrixNDZ, hc, Res.bind_error], by rw [reduceVectorNDZ, hc, Res.bind_error]⟩
  · intro h
    have hp : getNDPolyZ solve N u v = .error .assertFail := by
      rw [getNDPolyZ]
      by_cases a : v.length = N.n + 1
      · rw [decide_eq_true a, check_true, Res.bind_ok]
        by_cases b : u.length = N.n + 1
        · rw [decide_eq_true b, check_true, Res.bind_ok, checkND_eq hd, if_neg (fun h' => h ⟨a, b, h'⟩), Res.bind_error]
        · rw [decide_eq_false b, check_false, Res.bind_error]
      · rw [decide_eq_false a, check_false, Res.bind_error]
    exact ⟨hp, by rw [reduceVectorNDPolyZ, hp, Res.bind_error]⟩

/-- **C82 (`dr_nd`, exactly these).**  For a constructed object and a direction `v` with `n+1` entries, none negative, and any
`u`: `get_reduction_matrix_ND` returns a matrix exactly when `v` has degree `d` and `d` divides the degree of `u`. -/
theorem C82_direction_ND_iff {solve : Solver R} {p n d : Nat} {f : MonMap R} {N : ND R}
    (hC : ConstructedND solve p f n d N) (hn : 1 ≤ n) (u v : IVec) (hv : v.length = n + 1) (hv0 : NonNeg v) :
    ((∃ M, getReductionMatrixND solve N u v = .ok M) ↔ v.sum = d ∧ (d : Int) ∣ u.sum) ∧
    (getReductionMatrixND solve N u v = .error .assertFail ↔ ¬ (v.sum = d ∧ (d : Int) ∣ u.sum)) := by
  obtain ⟨h1, h2, hI⟩ := hC.init
  have hd : N.n < N.d := (hI.nd (by omega)).dr.hd
  have hbad : ¬ (v.sum = d ∧ (d : Int) ∣ u.sum) → getReductionMatrixND solve N u v = .error .assertFail :=
    fun h => (C82_direction_ND solve N (by omega) u v (by rw [h2]; exact h) (CVec.mk' 0 (fun _ => 0)) 0).1
  have hgood : v.sum = d ∧ (d : Int) ∣ u.sum → ∃ M, getReductionMatrixND solve N u v = .ok M := by
    rintro ⟨h3, m, hm⟩
    obtain ⟨M, e, -⟩ := C34_step_every_u hC hn u v m (by rw [hm, mul_comm]) ⟨hv, hv0, h3⟩
    exact ⟨M, e⟩
  refine ⟨⟨?_, hgood⟩, ⟨?_, hbad⟩⟩
  · rintro ⟨M, e⟩
    by_contra h
    rw [hbad h] at e
    cases e
  · intro e h
    obtain ⟨M, e'⟩ := hgood h
    rw [e'] at e
    cases e

/-- **C82 (`monomial_to_basis_ND`).**  As for `monomial_to_basis_J`. -/
theorem C82_monomial_to_basis_ND [Nontrivial R] {solve : Solver R} {p n d : Nat} {f : MonMap R} {N : ND R}
    (hC : ConstructedND solve p f n d N) (hn : 1 ≤ n) (u : IVec) :
    ((∃ H, monomialToBasisND solve N u = .ok H) ↔ u.length = n + 1 ∧ (∀ x ∈ u, 0 < x) ∧ (d : Int) ∣ u.sum) ∧
    (monomialToBasisND solve N u = .error .assertFail ↔ ¬ (u.length = n + 1 ∧ (∀ x ∈ u, 0 < x) ∧ (d : Int) ∣ u.sum)) := by
  obtain ⟨h1, h2, hI⟩ := hC.init
  have hd : N.n < N.d := (hI.nd (by omega)).dr.hd
  have hbad : ¬ (u.length = n + 1 ∧ (∀ x ∈ u, 0 < x) ∧ (d : Int) ∣ u.sum) →
      monomialToBasisND solve N u = .error .assertFail := by
    intro h
    rw [monomialToBasisND]
    by_cases a : u.length = N.n + 1
    · rw [decide_eq_true a, check_true, Res.bind_ok]
      by_cases b : ∀ x ∈ u, 0 < x
      · rw [show u.all (fun x => decide (0 < x)) = true from List.all_eq_true.2 (fun x hx => decide_eq_true (b x hx)),
          check_true, Res.bind_ok, if_neg (by omega), decide_eq_false, check_false, Res.bind_error]
        intro hs
        refine h ⟨by rw [a, h1], b, ?_⟩
        rw [sumVec_eq_sum] at hs
        rw [← h2]
        exact Int.dvd_of_emod_eq_zero hs
      · rw [show u.all (fun x => decide (0 < x)) = false from ?_, check_false, Res.bind_error]
        rw [← Bool.not_eq_true, List.all_eq_true]
        exact fun hx => b (fun x h => of_decide_eq_true (hx x h))
    · rw [decide_eq_false a, check_false, Res.bind_error]
  have hgood : u.length = n + 1 ∧ (∀ x ∈ u, 0 < x) ∧ (d : Int) ∣ u.sum → ∃ H, monomialToBasisND solve N u = .ok H := by
    rintro ⟨a, b, m, hm⟩
    have hs : 0 ≤ u.sum := List.sum_nonneg (fun x hx => le_of_lt (b x hx))
    have hm0 : 0 ≤ m := by
      by_contra hneg
      have : (d : Int) * m < 0 := mul_neg_of_pos_of_neg (by omega) (by omega)
      omega
    obtain ⟨H, e, -⟩ := C48_monomial_to_basis_ND hC hn u a b m.toNat (by rw [hm, Int.toNat_of_nonneg hm0, mul_comm])
    exact ⟨H, e⟩
  refine ⟨⟨?_, hgood⟩, ⟨?_, hbad⟩⟩
  · rintro ⟨M, e⟩
    by_contra h
    rw [hbad h] at e
    cases e
  · intro e h
    obtain ⟨M, e'⟩ := hgood h
    rw [e'] at e
    cases e

/-- **C82 (`get_inclusion_matrix_ND`, `get_coKernels_ND_to_basis`).**  An entry that is not positive or a degree other than
`d` (and for the inclusion `l >= n`): an assertion. -/
theorem C82_inclusion_ND (solve : Solver R) (N : ND R) (u : IVec) (l : Nat) :
    (¬ ((∀ x ∈ u, 0 < x) ∧ u.sum = N.d ∧ l < N.n) → inclMatND solve N u l = .error .assertFail) ∧
    (¬ ((∀ x ∈ u, 0 < x) ∧ u.sum = N.d) → cokernelsToBasis solve N u = .error .assertFail) := by
  have hall : ∀ b : ¬ ∀ x ∈ u, 0 < x, u.all (fun x => decide (0 < x)) = false := fun b => by
    rw [← Bool.not_eq_true, List.all_eq_true]
    exact fun hx => b (fun x h => of_decide_eq_true (hx x h))
  have hall' : ∀ b : ∀ x ∈ u, 0 < x, u.all (fun x => decide (0 < x)) = true := fun b =>
    List.all_eq_true.2 (fun x hx => decide_eq_true (b x hx))
  constructor
  · intro h
    rw [inclMatND]
    by_cases a : ∀ x ∈ u, 0 < x
    · rw [hall' a, check_true, Res.bind_ok]
      by_cases b : u.sum = N.d
      · rw [sumVec_eq_sum, decide_eq_true b, check_true, Res.bind_ok, decide_eq_false (fun c => h ⟨a, b, c⟩), check_false,
          Res.bind_error]
      · rw [sumVec_eq_sum, decide_eq_false b, check_false, Res.bind_error]
    · rw [hall a, check_false, Res.bind_error]
  · intro h
    rw [cokernelsToBasis]
    by_cases a : ∀ x ∈ u, 0 < x
    · rw [hall' a, check_true, Res.bind_ok, sumVec_eq_sum, decide_eq_false (fun b => h ⟨a, b⟩), check_false, Res.bind_error]
    · rw [hall a, check_false, Res.bind_error]

end

/-! ### Cases -/

/-- The cubic: pairs that pass and pairs that do not, for the theorems above. -/
example : ∃ D, Constructed exSolve 5 exCubic 1 3 D ∧
    (∃ M, getReductionMatrixJ exSolve D [4, 1] [2, 1] = .ok M) ∧
    getReductionMatrixJ exSolve D [4, 1] [3, 0] = .error .assertFail ∧
    (∃ M, getReductionMatrixJ exSolve D [4, 0] [3, 0] = .ok M) ∧
    getReductionMatrixJ exSolve D [4, 1] [2, 2] = .error .assertFail ∧
    (∃ H, monomialToBasisJ exSolve D [4, 2] = .ok H) ∧ monomialToBasisJ exSolve D [4, 3] = .error .assertFail ∧
    monomialToBasisJ exSolve D [6, 0] = .error .assertFail ∧ monomialToBasisJ exSolve D [2, 3, 1] = .error .assertFail ∧
    (∃ M, finalMatJ exSolve D 1 = .ok M) ∧ finalMatJ exSolve D 2 = .error .assertFail ∧
    finalMatJ exSolve D 0 = .error .assertFail := by
  obtain ⟨D, hC, -⟩ := exCubic_constructed
  have : Nontrivial (ZMod 25) := ⟨⟨0, 1, by decide⟩⟩
  refine ⟨D, hC, (C82_direction_iff hC [4, 1] [2, 1] rfl rfl (by unfold NonNeg; decide)).1.2 (by decide),
    (C82_direction_iff hC [4, 1] [3, 0] rfl rfl (by unfold NonNeg; decide)).2.2 (by decide),
    (C82_direction_iff hC [4, 0] [3, 0] rfl rfl (by unfold NonNeg; decide)).1.2 (by decide),
    (C82_direction_iff hC [4, 1] [2, 2] rfl rfl (by unfold NonNeg; decide)).2.2 (by decide),
    (C82_monomial_to_basis hC (le_refl 1) [4, 2]).1.2 (by decide), (C82_monomial_to_basis hC (le_refl 1) [4, 3]).2.2 (by decide),
    (C82_monomial_to_basis hC (le_refl 1) [6, 0]).2.2 (by decide), (C82_monomial_to_basis hC (le_refl 1) [2, 3, 1]).2.2 (by decide),
    (C82_final hC 1).1.2 (by decide), (C82_final hC 2).2.2 (by decide), (C82_final hC 0).2.2 (by decide)⟩

/-- The non-degenerate object of the cubic. -/
example : ∃ N, ConstructedND exSolve 5 exCubic 1 3 N ∧
    (∃ M, getReductionMatrixND exSolve N [-4, 1] [3, 0] = .ok M) ∧
    getReductionMatrixND exSolve N [4, 1] [3, 0] = .error .assertFail ∧
    getReductionMatrixND exSolve N [4, 2] [2, 0] = .error .assertFail ∧
    (∃ H, monomialToBasisND exSolve N [4, 2] = .ok H) ∧ monomialToBasisND exSolve N [4, 3] = .error .assertFail ∧
    inclMatND exSolve N [2, 1] 1 = .error .assertFail ∧ cokernelsToBasis exSolve N [3, 0] = .error .assertFail ∧
    getNDPolyZ exSolve N [4, 2] [3] = .error .assertFail := by
  obtain ⟨N, hC, -⟩ := exCubic_constructedND
  have : Nontrivial (ZMod 25) := ⟨⟨0, 1, by decide⟩⟩
  obtain ⟨h1, h2, -⟩ := hC.init
  refine ⟨N, hC, (C82_direction_ND_iff hC (le_refl 1) [-4, 1] [3, 0] rfl (by unfold NonNeg; decide)).1.2 (by decide),
    (C82_direction_ND_iff hC (le_refl 1) [4, 1] [3, 0] rfl (by unfold NonNeg; decide)).2.2 (by decide),
    (C82_direction_ND_iff hC (le_refl 1) [4, 2] [2, 0] rfl (by unfold NonNeg; decide)).2.2 (by decide),
    (C82_monomial_to_basis_ND hC (le_refl 1) [4, 2]).1.2 (by decide), (C82_monomial_to_basis_ND hC (le_refl 1) [4, 3]).2.2 (by decide),
    (C82_inclusion_ND exSolve N [2, 1] 1).1 (by rw [h1, h2]; decide), (C82_inclusion_ND exSolve N [3, 0] 0).2 (by rw [h2]; decide),
    ((C82_direction_ND_ZZ exSolve N (by omega) [4, 2] [3] (CVec.mk' 0 (fun _ => 0)) 0).2 (by rw [h1, h2]; decide)).1⟩

end Verif
