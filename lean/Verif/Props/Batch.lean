import Verif.Lemmas.Batch
import Verif.Props.DeRham

/-!
Properties C26 and C27: batched reductions equal repeated single ones, and working over `ZZ` gives the
same residues.
-/

namespace Verif

open Spec MvPolynomial

section

variable {R : Type} [CommRing R]

/-- **C26.**  For every object built by the constructor, every `u`, `v` meeting the precondition, every
count `k >= 0` and every vector `G` of the right length, `reduce_vector_J_poly(u, v, k, G)` returns what
`k` calls of `reduce_vector_J` return, from `u+kv` down to `u`; for `k = 0` it returns `G`. -/
theorem C26_batched {solve : Solver R} {p n d : Nat} {f : MonMap R} {D : DR R}
    (hC : Constructed solve p f n d D) (u v : IVec) (hu : u.length = n + 1) (hv : IsTuple (n + 1) d v)
    (huv : ∀ i, ev n u i = 0 ∨ 0 < ev n v i) (k : Nat) (L : List IVec) (hL : IsTable n ((d : Int) * n - n) L)
    (G : CVec R) (hG : G.len = L.length) :
    (∃ H, reduceVectorJPoly solve D u v k G = .ok H ∧ H.len = L.length ∧ (k = 0 → H = G)) ∧
    reduceVectorJPoly solve D u v k G = singleSteps (fun w G => reduceVectorJ solve D w v G) u v k G := by
  obtain ⟨rfl, rfl, hI⟩ := hC.init
  obtain ⟨L', hL', -, g, eM⟩ := freshRedJ_ok hC.solver hI.ok hI.top hv
  obtain rfl := hL.eq hL'
  have hs := squareFam_mk' L.length g
  obtain ⟨M1, e1, -⟩ := slopeRed_ok hs D.n v
  have hlen : u.length = v.length := by rw [hu, hv.1]
  have hpoly : reduceVectorJPoly solve D u v k G = singleSteps
      (fun w G => (evalRed D.n (fun i => CMat.mk' L.length L.length (g i)) w).mulVec G) u v k G := by
    rw [reduceVectorJPoly, checkUV_ok hu hv huv, Res.bind_ok, eM, Res.bind_ok, polyWith, hG, e1, Res.bind_ok,
      if_neg (by omega), Int.toNat_natCast]
    exact polyLoop_eq hs D.n hlen e1 k G hG
  have hsteps : ∀ (k : Nat) (G : CVec R), G.len = L.length → ∃ H, singleSteps
      (fun w G => (evalRed D.n (fun i => CMat.mk' L.length L.length (g i)) w).mulVec G) u v k G = .ok H ∧
      H.len = L.length ∧ (k = 0 → H = G) ∧
      singleSteps (fun w G => reduceVectorJ solve D w v G) u v k G = .ok H := by
    intro k
    induction k with
    | zero => intro G hG; exact ⟨G, rfl, hG, fun _ => rfl, rfl⟩
    | succ k ih =>
      intro G hG
      obtain ⟨G0, G1, -, -, -, -, a5⟩ := step_eq hs D.n hlen e1 k hG
      obtain ⟨H, b1, b2, -, b4⟩ := ih (CVec.mk' L.length (fun r => G0.e r + (k : R) * G1.e r)) rfl
      refine ⟨H, by rw [singleSteps, a5, Res.bind_ok, b1], b2, by omega, ?_⟩
      have hlen' : (List.zipWith (fun a b => a + (k : Int) * b) u v).length = D.n + 1 := by
        rw [List.length_zipWith, hu, hv.1, min_self]
      have huv' : ∀ i, ev D.n (List.zipWith (fun a b => a + (k : Int) * b) u v) i = 0 ∨ 0 < ev D.n v i := by
        intro i
        rw [ev_axpy hlen]
        rcases huv i with h | h
        · rcases lt_or_ge 0 (ev D.n v i) with h1 | h1
          · exact Or.inr h1
          · left
            have : ev D.n v i = 0 := le_antisymm h1 (ev_nonneg hv i)
            simp only [h, this, mul_zero, add_zero]
        · exact Or.inr h
      rw [singleSteps, reduceVectorJ_fresh, checkUV_ok hlen' hv huv', Res.bind_ok, eM, Res.bind_ok,
        reduceWith_eq hs D.n _ hG, a5, Res.bind_ok, b4]
  obtain ⟨H, h1, h2, h3, h4⟩ := hsteps k G hG
  exact ⟨⟨H, by rw [hpoly, h1], h2, h3⟩, by rw [hpoly, h1, h4]⟩

/-- **C26 (class).**  The batched reduction keeps the cohomology class, over any number of steps: the form
`(m+k-1)! x^(u+kv) G Ω / (x_0...x_n f^(m+k))` is cohomologous to `(m-1)! x^u H Ω / (x_0...x_n f^m)`. -/
theorem C26_batched_class {solve : Solver R} {p n d : Nat} {f : MonMap R} {D : DR R}
    (hC : Constructed solve p f n d D) (u v : IVec) (hu : u.length = n + 1) (hu0 : NonNeg u)
    (hv : IsTuple (n + 1) d v) (huv : ∀ i, ev n u i = 0 ∨ 0 < ev n v i) (m : Nat) (hm : 1 ≤ m)
    (hdeg : u.sum + d * n - n = m * d) (k : Nat) (L : List IVec) (hL : IsTable n ((d : Int) * n - n) L)
    (G : CVec R) (hG : G.len = L.length) :
    ∃ H, reduceVectorJPoly solve D u v k G = .ok H ∧ H.len = L.length ∧
      Cohomologous (toPoly (n + 1) f) d
        (form (m + k) (((m + k - 1).factorial : R) • family n L (fun i => ev n u i + k * ev n v i) G.e))
        (form m (((m - 1).factorial : R) • family n L (ev n u) H.e)) := by
  have hlen : u.length = v.length := by rw [hu, hv.1]
  rw [(C26_batched hC u v hu hv huv k L hL G hG).2]
  induction k generalizing G with
  | zero =>
    refine ⟨G, rfl, hG, ?_⟩
    simp only [Nat.cast_zero, zero_mul, add_zero]
    rw [Cohomologous, sub_self]; exact Submodule.zero_mem _
  | succ k ih =>
    have e1 := ev_axpy (n := n) hlen (k : Int)
    have hlen' : (List.zipWith (fun a b => a + (k : Int) * b) u v).length = n + 1 := by
      rw [List.length_zipWith, hu, hv.1, min_self]
    have hv0 := ev_nonneg hv
    have hu0' : ∀ i, 0 ≤ ev n u i := fun i => nonNeg_getD hu0 i
    have hk0 : (0 : Int) ≤ k := by omega
    have hn1 : NonNeg (List.zipWith (fun a b => a + (k : Int) * b) u v) :=
      nonNeg_of_ev hlen' (fun i => by
        rw [e1]; have := mul_nonneg hk0 (hv0 i); have := hu0' i; simp only; omega)
    have huv' : ∀ i, ev n (List.zipWith (fun a b => a + (k : Int) * b) u v) i = 0 ∨ 0 < ev n v i := by
      intro i
      rw [e1]
      rcases huv i with h | h
      · rcases lt_or_ge 0 (ev n v i) with h1 | h1
        · exact Or.inr h1
        · left
          have : ev n v i = 0 := le_antisymm h1 (hv0 i)
          simp only [h, this, mul_zero, add_zero]
      · exact Or.inr h
    have hs : (List.zipWith (fun a b => a + (k : Int) * b) u v).sum = u.sum + k * d := by
      rw [← sum_ev hlen', e1, Finset.sum_add_distrib, ← Finset.mul_sum, sum_ev hu, sum_ev_tuple hv]
    obtain ⟨L', M, hL', -, -, -, hstep⟩ := C22_reduction_keeps_class hC _ v hlen' hn1 hv huv' (m + k) (by omega)
      (by rw [hs]; push_cast; linarith)
    obtain rfl := hL.eq hL'
    obtain ⟨G', a1, -, a3, a4, -⟩ := hstep G hG
    obtain ⟨H, b1, b2, b3⟩ := ih G' a3
    refine ⟨H, by rw [singleSteps, a1, Res.bind_ok, b1], b2, ?_⟩
    rw [e1] at a4
    have e2 : (fun i => ev n u i + (k : Int) * ev n v i) + ev n v = fun i => ev n u i + ((k + 1 : Nat) : Int) * ev n v i := by
      funext i; simp only [Pi.add_apply]; push_cast; ring
    rw [e2] at a4
    rw [← add_assoc m k 1, Nat.add_sub_cancel]
    rw [Cohomologous] at *
    have := Submodule.add_mem _ a4 b3
    rwa [sub_add_sub_cancel] at this

/-- The elliptic curve, `u = (1,1,0)`, `v = (2,1,0)`, 4 steps from pole order 6 to 2. -/
example : ∃ D L, Constructed exSolve 5 exCurve 2 3 D ∧ NonNeg [1, 1, 0] ∧ IsTuple (2 + 1) 3 [2, 1, 0] ∧
    (∀ i, ev 2 [1, 1, 0] i = 0 ∨ 0 < ev 2 [2, 1, 0] i) ∧
    ([1, 1, 0] : IVec).sum + (3 : Nat) * (2 : Nat) - (2 : Nat) = (2 : Nat) * (3 : Nat) ∧
    IsTable 2 ((3 : Nat) * (2 : Nat) - (2 : Nat)) L := by
  obtain ⟨D, h, -⟩ := exCurve_constructed
  obtain ⟨h1, h2, hI⟩ := h.init
  obtain ⟨L, hL, -⟩ := D.list_ok hI.ok ((3 : Nat) * (2 : Nat) - (2 : Nat)) (by decide) (by rw [h1, h2]; decide)
  rw [h1] at hL
  refine ⟨D, L, h, by unfold NonNeg; decide, ?_, ?_, by decide, hL⟩
  · unfold IsTuple NonNeg deg; decide
  · intro i; fin_cases i <;> decide

end

section

variable {q : Nat} [NeZero q]

/-- **C27 (matrices).**  `get_reduction_matrix_J_ZZ(u, v)` is congruent to `get_reduction_matrix_J(u, v)`
modulo the modulus. -/
theorem C27_matrix {solve : Solver (ZMod q)} {p n d : Nat} {f : MonMap (ZMod q)} {D : DR (ZMod q)}
    (hC : Constructed solve p f n d D) (u v : IVec) (hu : u.length = n + 1) (hv : IsTuple (n + 1) d v)
    (huv : ∀ i, ev n u i = 0 ∨ 0 < ev n v i) :
    ∃ Z M, getReductionMatrixJZ solve D u v = .ok Z ∧ getReductionMatrixJ solve D u v = .ok M ∧
      Z.rows = M.rows ∧ Z.cols = M.cols ∧
      ∀ r c, r < M.rows → c < M.cols → ((Z.e r c : Int) : ZMod q) = M.e r c := by
  obtain ⟨rfl, rfl, hI⟩ := hC.init
  obtain ⟨L, -, -, g, eM⟩ := freshRedJ_ok hC.solver hI.ok hI.top hv
  obtain ⟨h1, h2, h3, h4, h5⟩ := evalRed_congr (fun i => lift_congr L.length g i) D.n u
  refine ⟨_, _, by rw [getReductionMatrixJZ, checkUV_ok hu hv huv, Res.bind_ok, freshRedJZ, eM, Res.bind_ok,
      Res.pure_eq, Res.bind_ok, Res.pure_eq], ?_, by rw [h1, h3], by rw [h2, h4], fun r c hr hc =>
        h5 r c (by rw [← h3]; exact hr) (by rw [← h4]; exact hc)⟩
  rw [getReductionMatrixJ, checkUV_ok hu hv huv, Res.bind_ok]
  rw [freshRedJ] at eM
  cases hs : solveJ solve D D.topLevel with
  | error e => rw [hs] at eM; cases eM
  | ok top =>
    rw [hs, Res.bind_ok] at eM
    rw [Res.bind_ok, eM, Res.bind_ok, Res.pure_eq]

/-- **C27.**  For every object built by the constructor and every sequence of single reductions, batched
reductions and remainders meeting the preconditions, the run over `ZZ` and the run over `ZZ_p` both return,
and the residues agree; after a batched reduction of at least one step, or a remainder, the entries are in
`[0, q)`, and stay there until the next single step. -/
theorem C27_sequence {solve : Solver (ZMod q)} {p n d : Nat} {f : MonMap (ZMod q)} {D : DR (ZMod q)}
    (hC : Constructed solve p f n d D) (L : List IVec) (hL : IsTable n ((d : Int) * n - n) L)
    (cs : List RedCall) (hcs : ∀ c ∈ cs, c.Valid n d) (Z : CVec Int) (G : CVec (ZMod q))
    (hG : G.len = L.length) (hZ : CongrVec Z G) :
    ∃ Z' G', runZ solve D cs Z = .ok Z' ∧ runP solve D cs G = .ok G' ∧ G'.len = L.length ∧ CongrVec Z' G' ∧
      (∀ cs0 c, cs = cs0 ++ [c] → (c = .rem ∨ ∃ u v k, c = .batch u v k ∧ 1 ≤ k) →
        ∀ r, r < Z'.len → 0 ≤ Z'.e r ∧ Z'.e r < q) := by
  obtain ⟨rfl, rfl, hI⟩ := hC.init
  induction cs generalizing Z G with
  | nil =>
    refine ⟨Z, G, rfl, rfl, hG, hZ, fun cs0 c h => ?_⟩
    have := congrArg List.length h
    simp at this
  | cons c cs ih =>
    have hrest := fun c h => hcs c (List.mem_cons_of_mem _ h)
    have hval := hcs c (List.mem_cons_self ..)
    -- one call
    obtain ⟨Z1, G1, e1, e2, l1, c1, r1⟩ : ∃ Z1 G1, (∀ cs, runZ solve D (c :: cs) Z = runZ solve D cs Z1) ∧
        (∀ cs, runP solve D (c :: cs) G = runP solve D cs G1) ∧ G1.len = L.length ∧ CongrVec Z1 G1 ∧
        ((c = .rem ∨ ∃ u v k, c = .batch u v k ∧ 1 ≤ k) → Reduced q Z1) := by
      cases c with
      | rem =>
        refine ⟨CVec.mk' Z.len (fun r => Z.e r % (q : Int)), G, fun _ => rfl, fun _ => rfl, hG,
          ⟨hZ.1, fun r hr => ?_⟩, fun _ r hr => ?_⟩
        · have hr' : r < Z.len := by rw [hZ.1]; exact hr
          simp only [CVec.mk', if_pos hr']
          rw [ZMod.intCast_mod, hZ.2 r hr]
        · have hr' : r < Z.len := hr
          have hq : (0 : Int) < q := by have := NeZero.pos q; omega
          simp only [CVec.mk', if_pos hr']
          exact ⟨Int.emod_nonneg _ (by omega), Int.emod_lt_of_pos _ hq⟩
      | single u v =>
        obtain ⟨hu, hv, huv⟩ := hval
        obtain ⟨L', hL', -, g, eM⟩ := freshRedJ_ok hC.solver hI.ok hI.top hv
        obtain rfl := hL.eq hL'
        have hcg := fun i => lift_congr L.length g i
        obtain ⟨HZ, H, b1, b2, b3, b4⟩ := mulVec_congr (evalRed_congr hcg D.n u) hZ hG
        refine ⟨HZ, H, fun cs => ?_, fun cs => ?_, b4, b3, ?_⟩
        · rw [runZ, reduceVectorJZ, checkUV_ok hu hv huv, Res.bind_ok, freshRedJZ, eM, Res.bind_ok,
            Res.pure_eq, Res.bind_ok, reduceWith_eq (l := L.length) (fun i => ⟨(hcg i).1, (hcg i).2.1⟩) D.n u
              (by rw [hZ.1, hG]), b1, Res.bind_ok]
        · rw [runP, reduceVectorJ_fresh, checkUV_ok hu hv huv, Res.bind_ok, eM, Res.bind_ok,
            reduceWith_eq (squareFam_mk' L.length g) D.n u hG, b2, Res.bind_ok]
        · rintro (h | ⟨u, v, k, h, -⟩) <;> cases h
      | batch u v k =>
        obtain ⟨hu, hv, huv⟩ := hval
        obtain ⟨L', hL', -, g, eM⟩ := freshRedJ_ok hC.solver hI.ok hI.top hv
        obtain rfl := hL.eq hL'
        have hcg := fun i => lift_congr L.length g i
        obtain ⟨MZ, M, s1, s2, s3⟩ := slopeRed_congr hcg D.n v
        obtain ⟨HZ, H, b1, b2, b3, b4, b5⟩ := polyLoop_congr (evalRed_congr hcg D.n u) s3 k Z G hZ hG
        refine ⟨HZ, H, fun cs => ?_, fun cs => ?_, b4, b3, ?_⟩
        · rw [runZ, reduceVectorJPolyZ, checkUV_ok hu hv huv, Res.bind_ok, freshRedJZ, eM, Res.bind_ok,
            Res.pure_eq, Res.bind_ok, polyWith, hZ.1, hG, s1, Res.bind_ok, if_neg (by omega),
            Int.toNat_natCast, b1, Res.bind_ok]
        · rw [runP, reduceVectorJPoly, checkUV_ok hu hv huv, Res.bind_ok, eM, Res.bind_ok,
            polyWith, hG, s2, Res.bind_ok, if_neg (by omega),
            Int.toNat_natCast, b2, Res.bind_ok]
        · rintro (h | ⟨u', v', k', h, hk⟩)
          · cases h
          · cases h; exact b5 (Or.inl hk)
    obtain ⟨Z', G', a1, a2, a3, a4, a5⟩ := ih Z1 G1 l1 c1 hrest
    refine ⟨Z', G', by rw [e1]; exact a1, by rw [e2]; exact a2, a3, a4, fun cs0 c' h hc' => ?_⟩
    cases cs with
    | nil =>
      have h2 : Z' = Z1 := (Except.ok.inj a1).symm
      cases cs0 with
      | nil =>
        have : c = c' := by simpa using h
        rw [h2]; exact r1 (by rw [this]; exact hc')
      | cons x xs => have := congrArg List.length h; simp at this
    | cons y ys =>
      cases cs0 with
      | nil => have := congrArg List.length h; simp at this
      | cons x xs =>
        simp only [List.cons_append, List.cons.injEq] at h
        exact a5 xs c' h.2 hc'

/-- A single step, a batch of 5 and a remainder for the elliptic curve. -/
example : ∃ D, Constructed exSolve 5 exCurve 2 3 D ∧
    ∀ c ∈ [RedCall.single [1, 1, 0] [2, 1, 0], .batch [0, 1, 0] [2, 1, 0] 5, .rem], c.Valid 2 3 := by
  obtain ⟨D, h, -⟩ := exCurve_constructed
  refine ⟨D, h, fun c hc => ?_⟩
  simp only [List.mem_cons, List.not_mem_nil, or_false] at hc
  rcases hc with rfl | rfl | rfl
  · refine ⟨rfl, by unfold IsTuple NonNeg deg; decide, fun i => ?_⟩; fin_cases i <;> decide
  · refine ⟨rfl, by unfold IsTuple NonNeg deg; decide, fun i => ?_⟩; fin_cases i <;> decide
  · trivial

end

end Verif
