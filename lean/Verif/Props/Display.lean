import Verif.Lemmas.Display

/-!
C70: `operator<<=`, the output "compatible with SAGE".
-/

namespace Verif

open Spec

/-- A vector is written as the tuple of its entries, unless it has exactly one. -/
theorem C70_vec (l : List Int) (h : l.length ≠ 1) : pyEval (dispVec showInt l) = some (pyTuple l) := by
  have hl : (dispVec showInt l).length = (dispVec showInt l).length - 1 + 1 := by
    have := List.length_pos_iff.2 (dispVec_ne showInt l); omega
  have := (pyVal_dispVec showInt_ne _ l (fun x _ => pyVal_int ((dispVec showInt l).length - 1) x)).read [] (by intro c s e; cases e)
  rw [List.append_nil, ← hl] at this
  rw [pyEval, this, pyVec_of_ne _ h]
  rfl

example : dispVec showInt [2, 0, -1] = "(2, 0, -1)".toList ∧ pyEval (dispVec showInt [2, 0, -1]) = some (pyTuple [2, 0, -1]) :=
  ⟨by decide +kernel, C70_vec [2, 0, -1] (by decide)⟩

/-- The claim for all vectors fails: a vector with one entry is read as that number. -/
theorem C70_vec_single_wrong (x : Int) : pyEval (dispVec showInt [x]) = some (.int x) ∧
    pyEval (dispVec showInt [x]) ≠ some (pyTuple [x]) := by
  have hl : (dispVec showInt [x]).length = (dispVec showInt [x]).length - 1 + 1 := by
    have := List.length_pos_iff.2 (dispVec_ne showInt [x]); omega
  have := (pyVal_dispVec showInt_ne _ [x] (fun y _ => pyVal_int ((dispVec showInt [x]).length - 1) y)).read [] (by intro c s e; cases e)
  rw [List.append_nil, ← hl] at this
  have h : pyEval (dispVec showInt [x]) = some (.int x) := by
    rw [pyEval, this]; rfl
  exact ⟨h, by rw [h]; intro e; cases e⟩

/-- A polynomial none of whose keys has exactly one exponent is written as the dictionary from the tuples of exponents to
the coefficients, in the order of the map. -/
theorem C70_map (m : MonMap Int) (h : ∀ e ∈ m, e.1.length ≠ 1) :
    pyEval (dispMap showInt m) = some (.dict (m.map (fun e => (pyTuple e.1, .int e.2)))) := by
  have hl : (dispMap showInt m).length + 1 = (dispMap showInt m).length - 2 + 3 := by
    simp only [dispMap, List.length_cons, List.length_append, List.length_nil]; omega
  have := pyVal_dispMap (sh := showInt) (val := Py.int) ((dispMap showInt m).length - 2) m [] (fun e _ => pyVal_int _ e.2)
  rw [List.append_nil, ← hl] at this
  rw [pyEval, this]
  simp only [skipWs, if_true]
  congr 2
  refine List.map_congr_left (fun e he => ?_)
  rw [pyVec_of_ne _ (h e he)]; rfl

/-- The same for coefficients modulo `M`, written by their residues. -/
theorem C70_map_mod {M : Nat} (m : MonMap (ZMod M)) (h : ∀ e ∈ m, e.1.length ≠ 1) :
    pyEval (dispMap showMod m) = some (.dict (m.map (fun e => (pyTuple e.1, .int e.2.val)))) := by
  have hl : (dispMap (showMod (q := M)) m).length + 1 = (dispMap (showMod (q := M)) m).length - 2 + 3 := by
    simp only [dispMap, List.length_cons, List.length_append, List.length_nil]; omega
  have := pyVal_dispMap (sh := showMod (q := M)) (val := fun a => Py.int a.val) ((dispMap (showMod (q := M)) m).length - 2) m []
    (fun e _ => ⟨(pyVal_int 0 (e.2.val : Int)).head, (pyVal_int ((dispMap (showMod (q := M)) m).length - 2 + 1) (e.2.val : Int)).read⟩)
  rw [List.append_nil, ← hl] at this
  rw [pyEval, this]
  simp only [skipWs, if_true]
  congr 2
  refine List.map_congr_left (fun e he => ?_)
  rw [pyVec_of_ne _ (h e he)]; rfl

example : dispMap showInt [([0, 4], 1), ([2, 2], -30)] = "{(0, 4): 1,\n (2, 2): -30}".toList ∧
    pyEval (dispMap showInt [([0, 4], 1), ([2, 2], -30)]) = some (.dict [(pyTuple [0, 4], .int 1), (pyTuple [2, 2], .int (-30))]) :=
  ⟨by decide +kernel, C70_map [([0, 4], 1), ([2, 2], -30)] (by decide)⟩

example : dispMap (showMod (q := 23)) [([4, 0, 0, 0], 1), ([0, 0, 0, 4], -1)] = "{(4, 0, 0, 0): 1,\n (0, 0, 0, 4): 22}".toList ∧
    pyEval (dispMap (showMod (q := 23)) [([4, 0, 0, 0], 1), ([0, 0, 0, 4], -1)]) =
      some (.dict [(pyTuple [4, 0, 0, 0], .int 1), (pyTuple [0, 0, 0, 4], .int 22)]) :=
  ⟨by decide +kernel, C70_map_mod (M := 23) [([4, 0, 0, 0], 1), ([0, 0, 0, 4], -1)] (by decide)⟩

/-- No two polynomials are written alike. -/
theorem C70_map_injective {M : Nat} [NeZero M] (m m' : MonMap (ZMod M)) (h : ∀ e ∈ m, e.1.length ≠ 1) (h' : ∀ e ∈ m', e.1.length ≠ 1)
    (hs : dispMap showMod m = dispMap showMod m') : m = m' := by
  have e := C70_map_mod m h
  rw [hs, C70_map_mod m' h'] at e
  have e' := (Py.dict.inj (Option.some.inj e)).symm
  refine List.map_injective_iff.2 ?_ e'
  rintro ⟨a, x⟩ ⟨b, y⟩ hab
  simp only [Prod.mk.injEq, pyTuple, Py.tuple.injEq, Py.int.injEq, Nat.cast_inj] at hab
  have h1 : a = b := List.map_injective_iff.2 (fun _ _ h => Py.int.inj h) hab.1
  have h2 : x = y := ZMod.val_injective M hab.2
  rw [h1, h2]

example : dispMap (showMod (q := 5)) [([4, 0], 1)] ≠ dispMap (showMod (q := 5)) [([4, 0], 2)] := fun h => by
  have := C70_map_injective (M := 5) [([4, 0], 1)] [([4, 0], 2)] (by decide) (by decide) h
  exact absurd this (by decide)

/-- A matrix with rows of at least two entries is not written as a literal of Python: the rows are written by NTL, without commas. -/
theorem C70_mat_wrong (x y : Int) (row : List Int) (rows : List (List Int)) :
    pyEval (dispMat showInt ((x :: y :: row) :: rows)) = none := by
  obtain ⟨c, s, e, h1, h2, h3, h4, h5, h6, h7, h8⟩ := showInt_first x
  obtain ⟨c', s', e', h1', h2', h3', h4', h5', h6', h7', h8'⟩ := showInt_first y
  have inner : ∀ k r, pyVal (k + 2) ('[' :: (showInt x ++ (' ' :: (showInt y ++ r)))) = none := by
    intro k r
    rw [pyVal, skipWs_of (show isWs '[' = false by decide)]
    simp only
    rw [pyItems, e, List.cons_append, skipWs_of h1]
    simp only [if_neg h5]
    rw [← List.cons_append, ← e, (pyVal_int k x).read _ (noDigit_cons (by decide))]
    simp only [skipWs_skip (show isWs ' ' = true by decide), e', List.cons_append, skipWs_of h1', if_neg h5', if_neg h8', Option.map_none]
  obtain ⟨r, hr⟩ : ∃ r, dispMat showInt ((x :: y :: row) :: rows) = '[' :: '[' :: (showInt x ++ (' ' :: (showInt y ++ r))) := by
    cases rows <;> cases row <;> simp [dispMat, dispItems, showVec, showItems]
  rw [hr, pyEval, pyVal, skipWs_of (show isWs '[' = false by decide)]
  simp only
  rw [pyItems, skipWs_of (show isWs '[' = false by decide)]
  simp only [if_neg (show ¬ ('[' = ']') by decide)]
  rw [List.length_cons, List.length_cons, inner]
  rfl

example : dispMat showInt [[1, 2], [3, 4]] = "[[1 2],\n[3 4]]".toList ∧ pyEval (dispMat showInt [[1, 2], [3, 4]]) = none :=
  ⟨by decide +kernel, C70_mat_wrong 1 2 [] [[3, 4]]⟩

/-- With the rows written by the version for vectors a matrix is the list of the tuples of its rows. -/
theorem C70_mat_old (rows : List (List Int)) (h : ∀ r ∈ rows, r.length ≠ 1) :
    pyEval (dispMatOld showInt rows) = some (.list (rows.map pyTuple)) := by
  have hl : (dispMatOld showInt rows).length + 1 = (dispMatOld showInt rows).length - 2 + 3 := by
    simp only [dispMatOld, List.length_cons, List.length_append, List.length_nil]; omega
  have := pyVal_dispList (dispVec_ne showInt) ((dispMatOld showInt rows).length - 2 + 2) rows []
    (fun r _ => pyVal_dispVec showInt_ne _ r (fun x _ => pyVal_int _ x))
  rw [← hl] at this
  rw [pyEval, dispMatOld]
  rw [dispMatOld] at this
  rw [this]
  simp only [skipWs, if_true]
  congr 2
  refine List.map_congr_left (fun r hr => ?_)
  rw [pyVec_of_ne _ (h r hr)]; rfl

example : dispMatOld showInt [[1, 2], [3, 4]] = "[(1, 2),\n(3, 4)]".toList ∧
    pyEval (dispMatOld showInt [[1, 2], [3, 4]]) = some (.list [pyTuple [1, 2], pyTuple [3, 4]]) :=
  ⟨by decide +kernel, C70_mat_old [[1, 2], [3, 4]] (by decide)⟩

end Verif
