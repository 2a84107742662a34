import Verif.Lemmas.SamePoly
import Verif.Props.Digits
import Verif.Lemmas.CubicRun
import Verif.Props.CubicRun

/-!
Property C89: what is computed depends on the polynomial, not on its list of terms.  `change_of_variables` (tools.h:56-85) leaves terms
with coefficient zero in the map, and `examples/frob.cc` applies it always, also with the identity matrix.
-/

namespace Verif

open Spec MvPolynomial

section

variable {R : Type} [CommRing R]

/-- **C89 (constructors).**  Two non-empty lists of terms of the same homogeneous polynomial, any function for the linear algebra: the
constructors of both classes fail in the same way, or return objects that differ in the list of terms only. -/
theorem C89_init (solve : Solver R) {q n d : ℕ} {f g : MonMap R} (hq : q ≠ 0) (hf : WFPoly (n + 1) f)
    (hg : WFPoly (n + 1) g) (hfne : f ≠ []) (hgne : g ≠ []) (hfd : ∀ e ∈ f, deg e.1 = d) (hgd : ∀ e ∈ g, deg e.1 = d)
    (hsize : ∀ l ≤ (n + 1) * d, (l + n).choose n < 2 ^ 63) (hp : toPoly (n + 1) f = toPoly (n + 1) g) :
    DR.init solve q g = (DR.init solve q f).map (fun D => { D with f := g }) ∧
    ND.init solve q g = (ND.init solve q f).map (fun N => { N with f := g }) :=
  ⟨DR_init_poly solve hq hf hg hfne hgne hfd hgd hsize hp, ND_init_poly solve hq hf hg hfne hgne hfd hgd hsize hp⟩

theorem init_args {solve : Solver R} {q : ℕ} {f : MonMap R} {D : DR R} (h : DR.init solve q f = .ok D) : f ≠ [] ∧ q ≠ 0 := by
  cases f with
  | nil => cases h
  | cons e f =>
    refine ⟨by simp, ?_⟩
    rintro rfl
    simp only [DR.init] at h
    simp only [or_true, if_true] at h
    cases h

theorem init_args_ND {solve : Solver R} {q : ℕ} {f : MonMap R} {N : ND R} (h : ND.init solve q f = .ok N) : f ≠ [] ∧ q ≠ 0 := by
  rw [ND.init] at h
  obtain ⟨D, hD, -⟩ := Res.bind_eq_ok.1 h
  exact init_args hD

/-- **C89 (objects).**  The object built from one list of terms, with another list of terms of the same polynomial put in its place, is
the object built from the other list. -/
theorem C89_constructed {solve : Solver R} {q n d : ℕ} {f g : MonMap R} (hg : WFPoly (n + 1) g) (hgne : g ≠ [])
    (hgd : ∀ e ∈ g, deg e.1 = d) (hp : toPoly (n + 1) f = toPoly (n + 1) g) :
    (∀ D, Constructed solve q f n d D → Constructed solve q g n d { D with f := g }) ∧
    (∀ N, ConstructedND solve q f n d N → ConstructedND solve q g n d { N with f := g }) := by
  refine ⟨fun D h => ⟨h.solver, hg, hgd, h.size, ?_⟩, fun N h => ⟨h.solver, hg, hgd, h.size, ?_⟩⟩
  · obtain ⟨h1, h2⟩ := init_args h.built
    rw [(C89_init solve h2 h.wf hg h1 hgne h.hom hgd h.size hp).1, h.built]
    rfl
  · obtain ⟨h1, h2⟩ := init_args_ND h.built
    rw [(C89_init solve h2 h.wf hg h1 hgne h.hom hgd h.size hp).2, h.built]
    rfl

theorem ndLoop_terms (N : ND R) (g : MonMap R) (solves : List (List ℕ × CMat R)) (col : ℕ) : ∀ (k : ℕ) (H : MonMap (CVec R))
    (res : MonMap (CMat R)), ndLoop { N with f := g } solves col k H res = ndLoop N solves col k H res
  | 0, _, _ => rfl
  | k + 1, H, res => by
    have h : ∀ H res, ndLoop { N with f := g } solves col k H res = ndLoop N solves col k H res :=
      ndLoop_terms N g solves col k
    simp only [ndLoop, h]
    rfl

theorem ndColumn_terms (N : ND R) (g : MonMap R) (solves : List (List ℕ × CMat R)) (v : IVec) (col : ℕ)
    (res : MonMap (CMat R)) : ndColumn { N with f := g } solves v col res = ndColumn N solves v col res := by
  simp only [ndColumn, ndLoop_terms]
  rfl

/-- **C89 (reductions).**  The matrices of `compute_reduction_matrix_ND` are the same for both lists of terms, for every direction. -/
theorem C89_reductions [DecidableEq R] {solve : Solver R} {q n d : ℕ} {f g : MonMap R} (hg : WFPoly (n + 1) g) (hgne : g ≠ [])
    (hgd : ∀ e ∈ g, deg e.1 = d) (hp : toPoly (n + 1) f = toPoly (n + 1) g) {N : ND R}
    (hC : ConstructedND solve q f n d N) (v : IVec) :
    redMatND solve { N with f := g } v = redMatND solve N v := by
  obtain ⟨e1, e2, hI⟩ := hC.init
  obtain ⟨-, -, hI'⟩ := ((C89_constructed hg hgne hgd hp).2 N hC).init
  have hnd := hI.base.ok.hd
  have key : ∀ l : ℤ, l ≤ ((N.n : ℤ) + 1) * N.d → solveND solve ({ N with f := g } : ND R).toDR l = solveND solve N.toDR l := by
    intro l hl
    rw [solveND, solveND]
    have h := matrixND_poly (D := N.toDR) (D' := ({ N with f := g } : ND R).toDR) hI.base.ok.toTabOK hI'.base.ok.toTabOK rfl
      (by rw [hI.base.f_eq, e1]; exact hp) l hl
    rw [h]
  have htop := key N.topND (by
    show ((N.d : ℤ) - 1) * (N.n + 1) + 1 ≤ _
    nlinarith)
  have hlow : ∀ i : ℕ, i < N.n → solveND solve ({ N with f := g } : ND R).toDR (((i : ℤ) + 1) * N.d) =
      solveND solve N.toDR (((i : ℤ) + 1) * N.d) := fun i hi => key _ (by nlinarith)
  rw [redMatND, redMatND]
  show (check (decide (sumVec v = N.d)) >>= fun _ => ((List.range N.n).mapM (fun i : ℕ =>
      solveND solve ({ N with f := g } : ND R).toDR (((i : ℤ) + 1) * N.d)) >>= fun low =>
      solveND solve ({ N with f := g } : ND R).toDR N.topND >>= _)) = _
  rw [htop, mapM_res_congr (fun i hi => hlow i (List.mem_range.1 hi))]
  simp only [ndColumn_terms]

end

section

variable {p K : ℕ} [hprime : Fact p.Prime]

/-- **C89 (finite differences).**  The condition on the boxes of `finitediff_flint_nmod` holds for one list of terms if it holds for the
other. -/
theorem C89_flint {Q : ℕ} {solve : Solver (ZMod Q)} {q n d : ℕ} {f g : MonMap (ZMod Q)} (hg : WFPoly (n + 1) g) (hgne : g ≠ [])
    (hgd : ∀ e ∈ g, deg e.1 = d) (hp : toPoly (n + 1) f = toPoly (n + 1) g) {N : ND (ZMod Q)}
    (hC : ConstructedND solve q f n d N) (x : ℕ) (h : FlintBatchOK Q x n d solve N) :
    FlintBatchOK Q x n d solve { N with f := g } := by
  rcases h with h | h | h
  · exact Or.inl h
  · exact Or.inr (Or.inl h)
  · refine Or.inr (Or.inr (fun u v m poly h1 h2 h3 h4 h5 h6 => h u v m poly h1 h2 h3 h4 h5 ?_))
    rw [← h6, getNDPolyZ, getNDPolyZ, redMatNDPolyZ, redMatNDPolyZ, redMatNDPoly, redMatNDPoly,
      C89_reductions hg hgne hgd hp hC]
    rfl

/-- **C89 (matrices).**  Objects built from two lists of terms of the same polynomial, with numbers of terms whose coefficients fit:
`frob_matrix_J` (`n < 2 p`) and `frob_matrix_ND` return for one exactly if they do for the other, with any tables and orders of the
parallel loops, and then the matrices are equal. -/
theorem C89_matrices_partial (hK : 1 ≤ K) {la : LinAlg (ZMod p)} (hla : LinAlgOK la) {flint : Bool} {precision : ℕ}
    (hprec : K ≤ precision) {q n d : ℕ} {f g : MonMap (ZMod (p ^ K))} (hn : 1 ≤ n) (hg : WFPoly (n + 1) g) (hgne : g ≠ [])
    (hgd : ∀ e ∈ g, deg e.1 = d) (hp : toPoly (n + 1) f = toPoly (n + 1) g)
    {T T' : List (MonMap (ZMod (p ^ K)))} (hT : Reached n f T) (hT' : Reached n g T') (pre pre' : Bool) {order order' : List ℕ}
    {M : List ℤ} (hM : ∀ x ∈ M, TermsFit n x) :
    (∀ D : DR (ZMod (p ^ K)), Constructed (padicSolver p K la flint precision) q f n d D → n < 2 * p →
      order.Perm (List.range D.basis.length) → order'.Perm (List.range D.basis.length) →
      ((∃ r, frobMatrixJ (padicSolver p K la flint precision) D p pre order T M = .ok r) ↔
        ∃ r, frobMatrixJ (padicSolver p K la flint precision) { D with f := g } p pre' order' T' M = .ok r) ∧
      ∀ r r', frobMatrixJ (padicSolver p K la flint precision) D p pre order T M = .ok r →
        frobMatrixJ (padicSolver p K la flint precision) { D with f := g } p pre' order' T' M = .ok r' →
        r.1.rows = r'.1.rows ∧ r.1.cols = r'.1.cols ∧
        ∀ i k, i < D.basis.length → k < D.basis.length → r.1.e k i = r'.1.e k i) ∧
    (∀ N : ND (ZMod (p ^ K)), ConstructedND (padicSolver p K la flint precision) q f n d N →
      FlintBatchOK (p ^ K) p n d (padicSolver p K la flint precision) N →
      order.Perm (List.range N.basis.length) → order'.Perm (List.range N.basis.length) →
      ((∃ r, frobMatrixND (padicSolver p K la flint precision) N p pre order T M = .ok r) ↔
        ∃ r, frobMatrixND (padicSolver p K la flint precision) { N with f := g } p pre' order' T' M = .ok r) ∧
      ∀ r r', frobMatrixND (padicSolver p K la flint precision) N p pre order T M = .ok r →
        frobMatrixND (padicSolver p K la flint precision) { N with f := g } p pre' order' T' M = .ok r' →
        r.1.rows = r'.1.rows ∧ r.1.cols = r'.1.cols ∧
        ∀ i k, i < N.basis.length → k < N.basis.length → r.1.e k i = r'.1.e k i) := by
  refine ⟨fun D hC hn2 ho ho' => ?_, fun N hC hfl ho ho' => ?_⟩
  · have hC' := (C89_constructed hg hgne hgd hp).1 D hC
    have hpole : ∀ b ∈ D.basis, 1 ≤ poleOrder n d b := by
      intro b hb
      obtain ⟨i, hi⟩ := List.mem_iff_getElem?.1 hb
      obtain ⟨e1, e2, hI⟩ := hC.init
      have := (basis_pole hI.basis (by have := hI.ok.hd; omega) hi).1
      rwa [e1, e2] at this
    have hdiv : n / p ≤ 1 := by
      have := (Nat.div_lt_iff_lt_mul hprime.out.pos).2 hn2
      omega
    have i1 := (C74_returns_matrix_partial (q := q) hK hla hprec hn hT pre (order := order) hM).1 D hC ho hn2
    have i2 := (C74_returns_matrix_partial (q := q) hK hla hprec hn hT' pre' (order := order') hM).1 _ hC' ho' hn2
    rw [← hp] at i2
    refine ⟨i1.trans i2.symm, fun r r' h h' => ?_⟩
    obtain ⟨r1, r2, a1⟩ := (C64_frob_matrix_J_partial (p := p) hK hC hn
      (fun b hb => by have := hpole b hb; omega) hT pre ho M hM).1 r h
    obtain ⟨r1', r2', a2⟩ := (C64_frob_matrix_J_partial (p := p) hK hC' hn
      (fun b hb => by have := hpole b hb; omega) hT' pre' ho' M hM).1 r' h'
    rw [← hp] at a2
    have d1 := (C74_range (p := p) hK hn hT pre M r).1 D hC ho (fun b Ni hb _ hpos => by have := hpole b hb; omega) h
    have d2 := (C74_range (p := p) hK hn hT' pre' M r').1 _ hC' ho' (fun b Ni hb _ hpos => by have := hpole b hb; omega) h'
    exact ⟨r1.trans r1'.symm, r2.trans r2'.symm, C74_unique hK hla hprec hC a1 a2 d1 d2⟩
  · have hC' := (C89_constructed hg hgne hgd hp).2 N hC
    have hfl' := C89_flint hg hgne hgd hp hC p hfl
    have i1 := (C74_returns_matrix_partial (q := q) hK hla hprec hn hT pre (order := order) hM).2 N hC ho hfl
    have i2 := (C74_returns_matrix_partial (q := q) hK hla hprec hn hT' pre' (order := order') hM).2 _ hC' ho' hfl'
    rw [← hp] at i2
    refine ⟨i1.trans i2.symm, fun r r' h h' => ?_⟩
    obtain ⟨r1, r2, a1⟩ := (C64_frob_matrix_ND_partial (p := p) hK hC hn hfl hT pre ho M hM).1 r h
    obtain ⟨r1', r2', a2⟩ := (C64_frob_matrix_ND_partial (p := p) hK hC' hn hfl' hT' pre' ho' M hM).1 r' h'
    rw [← hp] at a2
    have d1 := (C74_range (p := p) hK hn hT pre M r).2 N hC ho h
    have d2 := (C74_range (p := p) hK hn hT' pre' M r').2 _ hC' ho' h'
    exact ⟨r1.trans r1'.symm, r2.trans r2'.symm, C74_unique hK hla hprec (C45_base_ND hC) a1 a2 d1 d2⟩

end

/-- The polynomial `x^3 + y^3 + z^3 + y z^2` with all ten terms. -/
def cubicDense (q : ℕ) : MonMap (ZMod q) :=
  [([0, 0, 3], 1), ([0, 1, 2], 1), ([0, 2, 1], 0), ([0, 3, 0], 1), ([1, 0, 2], 0), ([1, 1, 1], 0), ([1, 2, 0], 0),
    ([2, 0, 1], 0), ([2, 1, 0], 0), ([3, 0, 0], 1)]

/-- It is what `change_of_variables` returns for the identity matrix. -/
example : changeOfVariables (cubicYZ 17) (CMat.mk' 3 3 (fun i j => if i = j then 1 else 0)) = .ok (cubicDense 17) := by
  decide +kernel

/-- The two lists, and the objects built from them. -/
example (hprime : Fact (Nat.Prime 17)) : ∃ la : LinAlg (ZMod 17), LinAlgOK la ∧
    toPoly (2 + 1) (cubicYZ (17 ^ 1)) = toPoly (2 + 1) (cubicDense (17 ^ 1)) ∧ cubicYZ (17 ^ 1) ≠ cubicDense (17 ^ 1) ∧
    ConstructedND (padicSolver 17 1 la true 1) 17 (cubicYZ (17 ^ 1)) 2 3 (cubicObj (17 ^ 1)) ∧
    ConstructedND (padicSolver 17 1 la true 1) 17 (cubicDense (17 ^ 1)) 2 3 { cubicObj (17 ^ 1) with f := cubicDense (17 ^ 1) } ∧
    FlintBatchOK (17 ^ 1) 17 2 3 (padicSolver 17 1 la true 1) { cubicObj (17 ^ 1) with f := cubicDense (17 ^ 1) } := by
  obtain ⟨la, hla⟩ := exists_linAlg (ZMod 17)
  have hp : toPoly (2 + 1) (cubicYZ (17 ^ 1)) = toPoly (2 + 1) (cubicDense (17 ^ 1)) := by
    simp [toPoly, cubicDense, cubicYZ]
  have hg : WFPoly (2 + 1) (cubicDense (17 ^ 1)) := by
    refine ⟨?_, ?_⟩
    · simp [cubicDense, NonNeg]
    · simp only [cubicDense, List.map_cons, List.map_nil]; unfold LexLt; decide
  have hgd : ∀ e ∈ cubicDense (17 ^ 1), deg e.1 = (3 : ℕ) := by simp [cubicDense, deg]
  have hC := cubicYZ_constructed hla true (le_refl 1)
  exact ⟨la, hla, hp, by simp [cubicYZ, cubicDense], hC, (C89_constructed hg (by simp [cubicDense]) hgd hp).2 _ hC,
    C89_flint hg (by simp [cubicDense]) hgd hp hC 17 (C49_cubic_batch hla true le_rfl)⟩

end Verif
