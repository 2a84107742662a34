import Verif.Lemmas.Vec

/-!
Properties C01-C04: exponent vectors (`vec_int64.h`, `vec_int64/*.cc`).
-/

namespace Verif

open Spec

/-! ### C01 -/

/-- **C01 (meaning of the comparison).**  On non-empty vectors of one length the comparison
always returns, and it returns `true` exactly when the first vector is lexicographically
smaller. -/
theorem C01_lt_is_lex (a b : IVec) (hlen : a.length = b.length) (hne : a ≠ []) :
    (∃ r, ltVec a b = .ok r) ∧ (ltVec a b = .ok true ↔ LexLt a b) := by
  constructor
  · obtain ⟨r, hr⟩ := ltLoop_isOk a b hlen hne
    exact ⟨r, by simp [ltVec, hlen, hr]⟩
  · rw [← ltLoop_eq_true_iff a b hlen]
    simp [ltVec, hlen]

/-- **C01 (strict total order).**  On non-empty vectors of one length the comparison is
irreflexive, asymmetric, transitive, and two vectors neither of which is smaller are equal. -/
theorem C01_lt_strict_total_order (k : Nat) (hk : 0 < k) :
    (∀ a : IVec, a.length = k → ltVec a a = .ok false) ∧
    (∀ a b : IVec, a.length = k → b.length = k →
      ltVec a b = .ok true → ltVec b a = .ok false) ∧
    (∀ a b c : IVec, a.length = k → b.length = k → c.length = k →
      ltVec a b = .ok true → ltVec b c = .ok true → ltVec a c = .ok true) ∧
    (∀ a b : IVec, a.length = k → b.length = k →
      ltVec a b = .ok false → ltVec b a = .ok false → a = b) := by
  have ne : ∀ a : IVec, a.length = k → a ≠ [] := by
    rintro a h rfl; simp at h; omega
  have key : ∀ a b : IVec, a.length = k → b.length = k →
      (ltVec a b = .ok false ↔ ¬ LexLt a b) := by
    intro a b ha hb
    obtain ⟨⟨r, hr⟩, hiff⟩ := C01_lt_is_lex a b (ha.trans hb.symm) (ne a ha)
    rw [← hiff, hr]
    cases r <;> simp
  have key' : ∀ a b : IVec, a.length = k → b.length = k →
      (ltVec a b = .ok true ↔ LexLt a b) := by
    intro a b ha hb
    exact (C01_lt_is_lex a b (ha.trans hb.symm) (ne a ha)).2
  refine ⟨?_, ?_, ?_, ?_⟩
  · intro a ha
    exact (key a a ha ha).2 (LexLt.irrefl a)
  · intro a b ha hb h
    rw [key b a hb ha]
    intro h'
    exact LexLt.irrefl a (((key' a b ha hb).1 h).trans h')
  · intro a b c ha hb hc h1 h2
    rw [key' _ _ ha hc]
    exact ((key' a b ha hb).1 h1).trans ((key' b c hb hc).1 h2)
  · intro a b ha hb h1 h2
    rcases LexLt.trichotomy a b (ha.trans hb.symm) with h | h | h
    · exact absurd h ((key a b ha hb).1 h1)
    · exact h
    · exact absurd h ((key b a hb ha).1 h2)

/-- **C01 (rejected inputs).**  Different lengths stop the program; two empty vectors are
undefined behaviour. -/
theorem C01_lt_rejects (a b : IVec) :
    (a.length ≠ b.length → ltVec a b = .error .abort) ∧
    (a = [] → b = [] → ltVec a b = .error .ub) := by
  constructor
  · intro h; simp [ltVec, h]
  · rintro rfl rfl; simp [ltVec, ltLoop]

example : ltVec [0, 2, 1] [0, 2, 3] = .ok true ∧ ltVec [1, 0, 0] [0, 9, 9] = .ok false := by
  decide

/-! ### C02 -/

/-- **C02 (componentwise meaning).**  Addition, subtraction and scaling act entry by entry and
keep the common length. -/
theorem C02_entrywise (u v : IVec) (c : Int) (h : u.length = v.length) :
    (∃ w, addVec u v = .ok w ∧ w.length = u.length ∧
      ∀ i (hw : i < w.length) (hu : i < u.length) (hv : i < v.length), w[i] = u[i] + v[i]) ∧
    (∃ w, subVec u v = .ok w ∧ w.length = u.length ∧
      ∀ i (hw : i < w.length) (hu : i < u.length) (hv : i < v.length), w[i] = u[i] - v[i]) ∧
    ((mulVec c u).length = u.length ∧
      ∀ i (hw : i < (mulVec c u).length) (hu : i < u.length), (mulVec c u)[i] = c * u[i]) := by
  refine ⟨⟨_, by simp [addVec, h]; rfl, by simp [h], ?_⟩,
    ⟨_, by simp [subVec, h]; rfl, by simp [h], ?_⟩, by simp [mulVec], ?_⟩
  · intro i hw hu hv; simp
  · intro i hw hu hv; simp
  · intro i hw hu; simp [mulVec]

/-- **C02 (laws).**  `(u+v)-v = u`, `(u-v)+v = u`, `u+v = v+u`, and `c*(u-v) = c*u - c*v`; the
last with `c = p` is the identity `p*(u-v) == p*u - p*v` asserted by the Frobenius loops
(hypersurface_nd/hypersurface_nd.cc:230, 636). -/
theorem C02_laws (u v : IVec) (c : Int) (h : u.length = v.length) :
    (addVec u v >>= fun w => subVec w v) = .ok u ∧
    (subVec u v >>= fun w => addVec w v) = .ok u ∧
    addVec u v = addVec v u ∧
    (subVec u v >>= fun w => .ok (mulVec c w)) = subVec (mulVec c u) (mulVec c v) := by
  have zip_len : ∀ f : Int → Int → Int, (List.zipWith f u v).length = v.length := by
    intro f; simp [h]
  refine ⟨?_, ?_, ?_, ?_⟩
  · simp only [addVec, subVec, h, decide_true, check_true, Res.bind_ok, Res.pure_eq, zip_len]
    congr 1
    apply List.ext_getElem
    · simp [h]
    · intro i h1 h2
      simp
  · simp only [addVec, subVec, h, decide_true, check_true, Res.bind_ok, Res.pure_eq, zip_len]
    congr 1
    apply List.ext_getElem
    · simp [h]
    · intro i h1 h2
      simp
  · simp only [addVec, h, decide_true, check_true, Res.bind_ok, Res.pure_eq]
    congr 1
    apply List.ext_getElem
    · simp [h]
    · intro i h1 h2
      simp
      omega
  · simp only [subVec, mulVec, h, decide_true, check_true, Res.bind_ok, Res.pure_eq,
      List.length_map]
    congr 1
    apply List.ext_getElem
    · simp
    · intro i h1 h2
      simp [Int.mul_sub]

/-- **C02 (mismatch).**  Vectors of different length are never combined: the call stops at its
assertion. -/
theorem C02_mismatch_stops (u v : IVec) (h : u.length ≠ v.length) :
    addVec u v = .error .assertFail ∧ subVec u v = .error .assertFail ∧
    dotVec u v = .error .assertFail := by
  simp [addVec, subVec, dotVec, h]

/-- **C02 (scalar product).**  The scalar product is the sum of the products of entries, and is
symmetric and additive. -/
theorem C02_dot (u v w : IVec) (h : u.length = v.length) (h' : v.length = w.length) :
    dotVec u v = .ok ((List.zipWith (· * ·) u v).sum) ∧
    dotVec u v = dotVec v u ∧
    (addVec v w >>= fun x => dotVec u x) =
      (dotVec u v >>= fun a => dotVec u w >>= fun b => .ok (a + b)) := by
  have fold : ∀ (l : List Int), l.foldl (· + ·) 0 = l.sum := fun l => sumVec_eq_sum l
  have hsym : List.zipWith (fun x1 x2 : Int => x1 * x2) u v = List.zipWith (· * ·) v u := by
    apply List.ext_getElem
    · simp [h]
    · intro i h1 h2; simp [Int.mul_comm]
  refine ⟨?_, ?_, ?_⟩
  · simp only [dotVec, h, decide_true, check_true, Res.bind_ok, Res.pure_eq, fold]
  · simp only [dotVec, h, decide_true, check_true, Res.bind_ok, Res.pure_eq, hsym]
  · simp only [addVec, dotVec, h, h', decide_true, check_true, Res.bind_ok, Res.pure_eq, fold,
      List.length_zipWith, Nat.min_self]
    congr 1
    clear hsym fold
    induction u generalizing v w with
    | nil => simp
    | cons a u ih =>
      match v, w, h, h' with
      | b :: v, c :: w, h, h' =>
        have := ih v w (by simpa using h) (by simpa using h')
        simp only [List.zipWith_cons_cons, List.sum_cons]
        rw [this, Int.mul_add]
        omega

example : addVec [1, 2, 3] [4, 0, -1] = .ok [5, 2, 2] ∧
    subVec [1, 2, 3] [4, 0, -1] = .ok [-3, 2, 4] ∧ addVec [1] [] = .error .assertFail := by
  decide

/-! ### C03 -/

/-- **C03 (degree and bounds).**  For a vector with non-negative entries and `r ≥ 0`, `tweak`
returns a vector that is non-negative, componentwise at most the input, whose degree is lower
by exactly `min r (deg u)`, the degree being taken from the lowest-index variables first. -/
theorem C03_tweak_spec (u : IVec) (r : Int) (hu : NonNeg u) (hr : 0 ≤ r) :
    ∃ w, tweak u r = .ok w ∧ NonNeg w ∧ Spec.LE w u ∧
      deg w = deg u - min r (deg u) ∧ LowestFirst w u := by
  obtain ⟨h1, h2, h3⟩ := tweakNat_props u r.toNat hu
  refine ⟨tweakNat u r.toNat, ?_, h1, h2, ?_, tweakNat_shape u _ hu⟩
  · simp [tweak, Int.not_lt.2 hr]
  · simp only [deg]; rw [h3]; congr 2; omega

/-- **C03 (composition).**  Removing `a + b` is removing `a` and then `b`. -/
theorem C03_tweak_add (u : IVec) (a b : Int) (ha : 0 ≤ a) (hb : 0 ≤ b) :
    tweak u (a + b) = (tweak u a >>= fun w => tweak w b) := by
  have h1 : ¬ a + b < 0 := by omega
  have h2 : ¬ a < 0 := by omega
  have h3 : ¬ b < 0 := by omega
  simp only [tweak, h1, h2, h3, if_false, Res.bind_ok]
  rw [Int.toNat_add ha hb, tweakNat_add]

/-- **C03 (negative count).**  With a negative count the call never returns. -/
theorem C03_tweak_negative (u : IVec) (r : Int) (hr : r < 0) : tweak u r = .error .diverge := by
  simp [tweak, hr]

example : tweak [2, 0, 3] 4 = .ok [0, 0, 1] ∧ tweak [2, 0, 3] 1 = .ok [1, 0, 3] ∧
    tweak [2, 0, 3] 9 = .ok [0, 0, 0] ∧ NonNeg [2, 0, 3] := by
  refine ⟨by decide, by decide, by decide, ?_⟩
  intro x hx; simp at hx; omega

/-! ### C04 -/

/-- **C04.**  `diff u i` lowers entry `i` by one and leaves the others when entry `i` is
positive, stops at its assertion when it is not, and is undefined for an index outside. -/
theorem C04_diff_spec (u : IVec) (i : Nat) :
    (∀ (hi : i < u.length), 0 < u[i] →
      ∃ w, diffVec u i = .ok w ∧ w.length = u.length ∧ deg w = deg u - 1 ∧
        (NonNeg u → NonNeg w) ∧
        ∀ j (hw : j < w.length) (hu : j < u.length), w[j] = if j = i then u[j] - 1 else u[j]) ∧
    (∀ (hi : i < u.length), u[i] ≤ 0 → diffVec u i = .error .assertFail) ∧
    (u.length ≤ i → diffVec u i = .error .ub) := by
  refine ⟨?_, ?_, ?_⟩
  · intro hi hpos
    refine ⟨u.set i (u[i] - 1), ?_, by simp, ?_, ?_, ?_⟩
    · simp [diffVec, hi, hpos]
    · have : ∀ (l : IVec) (i : Nat) (hi : i < l.length) (x : Int),
          (l.set i x).sum = l.sum - l[i] + x := by
        intro l
        induction l with
        | nil => intro i hi; simp at hi
        | cons a l ih =>
          intro i hi x
          cases i with
          | zero => simp; omega
          | succ i => simp [ih i (by simpa using hi)]; omega
      simp only [deg, this u i hi]; omega
    · intro hn y hy
      rcases List.mem_or_eq_of_mem_set hy with h | h
      · exact hn y h
      · subst h; omega
    · intro j hw hu
      by_cases h : j = i
      · subst h; simp
      · rw [List.getElem_set_ne (by omega)]; simp [h]
  · intro hi hle
    simp [diffVec, hi, Int.not_lt.2 hle]
  · intro h
    simp [diffVec, h]

/-- **C04 (inverse of raising an exponent).**  `diff (u + e_i) i = u` for non-negative `u`. -/
theorem C04_diff_raise (u : IVec) (i : Nat) (hi : i < u.length) (hu : NonNeg u) :
    diffVec (u.set i (u[i] + 1)) i = .ok u := by
  have : 0 ≤ u[i] := hu _ (List.getElem_mem hi)
  have h1 : 0 < u[i] + 1 := by omega
  simp [diffVec, hi, h1]

example : diffVec [1, 0, 2] 2 = .ok [1, 0, 1] ∧ diffVec [1, 0, 2] 1 = .error .assertFail := by
  decide

end Verif
