import Verif.Lemmas.ThreadsJ
import Verif.Lemmas.Batch
import Verif.Props.ND

/-!
Properties C56 and C57: the parallel loops over the columns of `compute_reduction_matrix_ND` and
`compute_reduction_matrix_J` give the same matrices for every number of threads and every schedule.
-/

namespace Verif

open Spec MvPolynomial

section

variable {R : Type} [CommRing R]

/-- **C56.**  For every object built by the constructor and every direction `v`: the critical sections of the
iterations are defined, and whatever order they are executed in (those of one iteration keeping their order), the
function returns the map that executing the iterations one after the other returns. -/
theorem C56_columns_ND [DecidableEq R] {solve : Solver R} {p n d : Nat} {f : MonMap R} {N : ND R}
    (hC : ConstructedND solve p f n d N) (hn : 1 ≤ n) (v : IVec) (hv : IsTuple (n + 1) d v) :
    ∃ ts res, secsND solve N v = .ok ts ∧ ts.length = N.ndBasis.length ∧ redMatND solve N v = .ok res ∧
      ∀ order, Interleave ts order → runND N order = .ok res := by
  obtain ⟨rfl, rfl, hI⟩ := hC.init
  have hN := hI.nd hn
  have hsolve := hC.solver
  have hlow : ∃ low : List (List Nat × CMat R),
      (List.range N.n).mapM (fun i : Nat => solveND solve N.toDR (((i : Int) + 1) * N.d)) = .ok low ∧
      low.length = N.n ∧ ∀ k, k < N.n → ∀ BU,
        solveND solve N.toDR (((k : Int) + 1) * N.d) = .ok BU → low[k]? = some BU := by
    refine ⟨(List.range N.n).map (fun k : Nat => match solveND solve N.toDR (((k : Int) + 1) * N.d) with
      | .ok BU => BU
      | .error _ => ([], CMat.mk' 0 0 (fun _ _ => 0))), mapM_eq_ok _ _ _ ?_, by simp, ?_⟩
    · intro k hk
      obtain ⟨_, _, BU, e, -⟩ := level_ok hsolve hN (k := k) (by have := List.mem_range.1 hk; omega)
      rw [e]
    · intro k hk BU e
      rw [List.getElem?_map, List.getElem?_range hk, Option.map_some, e]
  obtain ⟨low, elow, llow, hlow⟩ := hlow
  obtain ⟨U, eU⟩ := hN.top
  have hs1 : ∀ k, k < N.n → ∀ BU,
      solveND solve N.toDR (((k : Int) + 1) * N.d) = .ok BU → aget (low ++ [([], U)]) k = .ok BU := by
    intro k hk BU e
    rw [aget, List.getElem?_append_left (by omega), hlow k hk BU e]
  have hs2 : ∀ BU, solveND solve N.toDR N.topND = .ok BU → aget (low ++ [([], U)]) N.n = .ok BU := by
    intro BU e
    rw [eU] at e
    cases e
    rw [aget, List.getElem?_append_right (by omega), llow]
    simp
  obtain ⟨res, e, h1⟩ := forRange_inv (n := N.ndBasis.length) (s := ([] : MonMap (CMat R)))
    (f := fun col res => ndColumn N (low ++ [([], U)]) v col res)
    (fun _ res => RES N.n N.ndBasis.length res) (MapOK.nil _ _) (by
      rintro col res hcol h1
      obtain ⟨res', e, g1, -⟩ := ndColumn_ok hsolve hN hs1 hs2 hv hcol h1
      exact ⟨res', e, g1⟩)
  have hsum : sumVec v = N.d := by rw [sumVec_eq_sum]; exact hv.2.2
  obtain ⟨ts, a1, al, a2⟩ := forRange_sec _ e
  refine ⟨ts, res.filter (fun e => !e.2.isZero), ?_, al, ?_, fun order ho => ?_⟩
  · rw [secsND, hsum, decide_eq_true rfl, check_true, Res.bind_ok, elow, Res.bind_ok, eU, Res.bind_ok, a1]
  · rw [redMatND, hsum, decide_eq_true rfl, check_true, Res.bind_ok, elow, Res.bind_ok, eU, Res.bind_ok, e]
    rfl
  · rw [runND, run_perm ho.perm a2 h1.klen]
    rfl

/-- **C57.**  For every object built by the constructor and every direction `v`: two iterations of the loop over the
columns never touch the same entry of the shared matrices, and in whatever order the reads and the writes of the
iterations happen (those of one iteration keeping their order), the matrices at the end are the ones that executing
the iterations one after the other gives. -/
theorem C57_columns_J {solve : Solver R} {p n d : Nat} {f : MonMap R} {D : DR R}
    (hC : Constructed solve p f n d D) (v : IVec) (hv : IsTuple (n + 1) d v) :
    ∃ top len us Ms, solveJ solve D D.topLevel = .ok top ∧ redMatJ D top.2 v = .ok Ms ∧
      updsJ D top.2 v = .ok (len, us) ∧ us.length = len ∧
      (∀ i j, i ≠ j → ∀ a ∈ stepsJ i ((us[i]?).getD []), ∀ b ∈ stepsJ j ((us[j]?).getD []), a.loc ≠ b.loc) ∧
      ∀ reg order, Interleave (us.mapIdx stepsJ) order → runJ len order reg = Ms := by
  obtain ⟨rfl, rfl, hI⟩ := hC.init
  obtain ⟨listG, listF, listW, U, hG, hF, hW, eG, eG', eF, eW, eU, hr, hc, -⟩ := top_ok hC.solver hI.ok hI.top
  obtain ⟨col, hcol, eM⟩ := redMatJ_ok hG hF hW eG eG' eF eW hr hc hv
  obtain ⟨len, us, e1, e2, e3, e4⟩ := redMatJ_upds eM
  have hgetD : ∀ (c : Nat), ∀ u ∈ (us[c]?).getD [], u.col = c := by
    intro c u hu
    cases hc : us[c]? with
    | none => rw [hc] at hu; simp at hu
    | some w => rw [hc] at hu; exact e3 c w hc u hu
  refine ⟨_, len, us, _, eU, eM, e1, e2, ?_, ?_⟩
  · intro i j hij a ha b hb hab
    obtain ⟨-, u, hu, la⟩ := mem_stepsJ ha
    obtain ⟨-, w, hw, lb⟩ := mem_stepsJ hb
    rw [la, lb] at hab
    have h1 := hgetD i u hu
    have h2 := hgetD j w hw
    simp only [Prod.mk.injEq] at hab
    omega
  · intro reg order ho
    have hts : ∀ (k : Nat) (t : List (StepJ R)), (us.mapIdx stepsJ)[k]? = some t →
        ∀ a ∈ t, a.it = k ∧ a.loc.2.2 = k := by
      intro k t hk a ha
      rw [List.getElem?_mapIdx] at hk
      cases hc : us[k]? with
      | none => rw [hc] at hk; cases hk
      | some w =>
        rw [hc, Option.map_some, Option.some.injEq] at hk
        subst hk
        obtain ⟨h1, u, hu, h2⟩ := mem_stepsJ ha
        exact ⟨h1, by rw [h2]; exact e3 k w hc u hu⟩
    have hall : ∀ a ∈ order, a.loc.2.2 = a.it := by
      intro a ha
      obtain ⟨t, ht, hat⟩ := List.mem_flatten.1 (ho.perm.mem_iff.1 ha)
      obtain ⟨k, hk⟩ := List.mem_iff_getElem?.1 ht
      obtain ⟨h1, h2⟩ := hts k t hk a hat
      rw [h1, h2]
    funext i
    rw [e4 i, runJ]
    show CMat.mk' len len _ = _
    congr 1
    funext r c
    have h := foldl_slice c order ⟨fun _ _ _ => 0, reg⟩ hall
    rw [interleave_filter ho (fun k t hk a ha => (hts k t hk a ha).1) c] at h
    clear hc
    have h' := congrFun (congrFun (congrArg Prod.fst h) i) r
    rw [MachJ.slice] at h'
    simp only at h'
    rw [h', List.getElem?_mapIdx]
    cases hc : us[c]? with
    | none => rfl
    | some w =>
      rw [Option.map_some, Option.getD_some, foldl_stepsJ]
      rfl

end

/-! ### Examples -/

theorem length_two {α : Type} {l : List α} (h : l.length = 2) : ∃ a b, l = [a, b] := by
  exact List.length_eq_two.1 h

theorem length_four {α : Type} {l : List α} (h : l.length = 4) : ∃ a b c e, l = [a, b, c, e] := by
  match l, h with
  | [a, b, c, e], _ => exact ⟨a, b, c, e, rfl⟩

/-- Not vacuous: for `2 x^3 + y^3` modulo 25 and `v = (1, 2)` the three iterations have 2, 4 and 4 critical sections,
and executing them in turns gives what one thread gives. -/
example : ∃ N res, ConstructedND exSolve 5 exCubic 1 3 N ∧ redMatND exSolve N [1, 2] = .ok res ∧
    ∃ a1 a2 b1 b2 b3 b4 c1 c2 c3 c4,
      secsND exSolve N [1, 2] = .ok [[a1, a2], [b1, b2, b3, b4], [c1, c2, c3, c4]] ∧ a1.length = 2 ∧ c4.length = 6 ∧
      runND N [c1, b1, a1, c2, b2, a2, c3, b3, c4, b4] = .ok res := by
  obtain ⟨N, hC, -⟩ := exCubic_constructedND
  obtain ⟨ts, res, h1, h2, h3, h4⟩ := C56_columns_ND hC (le_refl 1) [1, 2] (by unfold IsTuple NonNeg deg; decide)
  have hshape : (ND.init exSolve 5 exCubic >>= fun N => secsND exSolve N [1, 2] >>= fun ts =>
      pure (ts.map (fun t => t.map List.length))) = .ok [[2, 3], [2, 2, 2, 6], [2, 2, 2, 6]] := by decide +kernel
  rw [hC.built, Res.bind_ok, h1, Res.bind_ok] at hshape
  have hshape := Except.ok.inj hshape
  obtain ⟨x, y, z, rfl⟩ : ∃ x y z, ts = [x, y, z] := List.length_eq_three.1 (by simpa using congrArg List.length hshape)
  · have hs := hshape
    simp only [List.map_cons, List.map_nil, List.cons.injEq, and_true] at hs
    obtain ⟨sx, sy, sz⟩ := hs
    have lx : x.length = 2 := by simpa using congrArg List.length sx
    have ly : y.length = 4 := by simpa using congrArg List.length sy
    have lz : z.length = 4 := by simpa using congrArg List.length sz
    obtain ⟨a1, a2, rfl⟩ := length_two lx
    obtain ⟨b1, b2, b3, b4, rfl⟩ := length_four ly
    obtain ⟨c1, c2, c3, c4, rfl⟩ := length_four lz
    simp only [List.map_cons, List.map_nil, List.cons.injEq, and_true] at sx sz
    refine ⟨N, res, hC, h3, a1, a2, b1, b2, b3, b4, c1, c2, c3, c4, h1, sx.1, sz.2.2.2, h4 _ ?_⟩
    refine .step (i := 2) rfl (.step (i := 1) rfl (.step (i := 0) rfl (.step (i := 2) rfl (.step (i := 1) rfl
      (.step (i := 0) rfl (.step (i := 2) rfl (.step (i := 1) rfl (.step (i := 2) rfl (.step (i := 1) rfl (.done ?_))))))))))
    simp

/-- Not vacuous: for the same `f` the three iterations of the loop in `compute_reduction_matrix_J` make eight additions
each, and there is an execution. -/
example : ∃ D top us Ms, Constructed exSolve 5 exCubic 1 3 D ∧ solveJ exSolve D D.topLevel = .ok top ∧
    redMatJ D top.2 [1, 2] = .ok Ms ∧ updsJ D top.2 [1, 2] = .ok (3, us) ∧ us.map List.length = [8, 8, 8] ∧
    ∃ order, Interleave (us.mapIdx stepsJ) order ∧ runJ 3 order (fun _ => 0) = Ms := by
  obtain ⟨D, hC, -⟩ := exCubic_constructed
  obtain ⟨top, len, us, Ms, h1, h2, h3, h4, h5, h6⟩ := C57_columns_J hC [1, 2] (by unfold IsTuple NonNeg deg; decide)
  have hshape : (DR.init exSolve 5 exCubic >>= fun D => solveJ exSolve D D.topLevel >>= fun top =>
      updsJ D top.2 [1, 2] >>= fun us => pure (us.1, us.2.map List.length)) = .ok (3, [8, 8, 8]) := by decide +kernel
  rw [hC.built, Res.bind_ok, h1, Res.bind_ok, h3, Res.bind_ok] at hshape
  obtain ⟨rfl, hs⟩ := Prod.mk.inj (Except.ok.inj hshape)
  exact ⟨D, top, us, Ms, hC, h1, h2, h3, hs, _, interleave_flatten _, h6 _ _ (interleave_flatten _)⟩

end Verif
