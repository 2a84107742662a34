import Verif.Lemmas.DeRhamInit
import Verif.Lemmas.MonoSolver
import Verif.Props.SolveSystem

/-!
Properties C21 (Dwork/Griffiths part), C22, C23, C24, C30 (first part), C45 (first part):
the relation matrices, the reduction step, the final reduction, `monomial_to_basis_J`, the choice of a
direction and the basis of an object built by the constructor.
-/

namespace Verif

open Spec MvPolynomial

variable {R : Type} [CommRing R]

/-! ### An object for the examples -/

/-- `2 x^3 + y^3` modulo 25. -/
def exCubic : MonMap (ZMod 25) := [([0, 3], 1), ([3, 0], 2)]

/-- `2 x^3 + y^3 + z^3` modulo 25. -/
def exCurve : MonMap (ZMod 25) := [([0, 0, 3], 1), ([0, 3, 0], 1), ([3, 0, 0], 2)]

/-- The solver of the examples. -/
def exSolve : Solver (ZMod 25) := monoSolver (zmodInv 25)

theorem exSolve_ok : SolverOK exSolve := monoSolver_ok (zmodInv_ok 25)

theorem isOk_of_bind {α β : Type} {x : Res α} {g : α → β} {b : β}
    (h : (x >>= fun a => .ok (g a)) = .ok b) : ∃ a, x = .ok a ∧ g a = b := by
  rw [Res.bind_eq_ok] at h
  obtain ⟨a, ha, hb⟩ := h
  exact ⟨a, ha, Except.ok.inj hb⟩

theorem choose_small {n d : Nat} (h : ((n + 1) * d + n).choose n < 2 ^ 63) :
    ∀ l ≤ (n + 1) * d, (l + n).choose n < 2 ^ 63 := fun l hl =>
  lt_of_le_of_lt (Nat.choose_le_choose n (by omega)) h

set_option maxRecDepth 100000 in
/-- The constructor accepts the cubic in two variables; the basis is `y, x`. -/
theorem exCubic_constructed : ∃ D, Constructed exSolve 5 exCubic 1 3 D ∧ D.basis = [[0, 1], [1, 0]] := by
  obtain ⟨D, hD, hb⟩ := isOk_of_bind (g := DR.basis) (x := DR.init exSolve 5 exCubic)
    (b := [[0, 1], [1, 0]]) (by decide +kernel)
  refine ⟨D, ⟨exSolve_ok, ?_, ?_, choose_small (by decide), hD⟩, hb⟩
  · unfold exCubic WFPoly NonNeg LexLt; decide
  · unfold exCubic; decide

set_option maxRecDepth 100000 in
/-- The constructor accepts the elliptic curve; the basis is `1, xyz`. -/
theorem exCurve_constructed :
    ∃ D, Constructed exSolve 5 exCurve 2 3 D ∧ D.basis = [[0, 0, 0], [1, 1, 1]] := by
  obtain ⟨D, hD, hb⟩ := isOk_of_bind (g := DR.basis) (x := DR.init exSolve 5 exCurve)
    (b := [[0, 0, 0], [1, 1, 1]]) (by decide +kernel)
  refine ⟨D, ⟨exSolve_ok, ?_, ?_, choose_small (by decide), hD⟩, hb⟩
  · unfold exCurve WFPoly NonNeg LexLt; decide
  · unfold exCurve; decide

theorem Spec.Constructed.init {solve : Solver R} {p n d : Nat} {f : MonMap R} {D : DR R}
    (h : Constructed solve p f n d D) : D.n = n ∧ D.d = d ∧ InitOK solve p f D :=
  init_ok h.solver h.wf h.hom h.size h.built

local instance : Fact (Nat.Prime 7) := ⟨by norm_num⟩

/-- **C20 (contract).**  `solve_system_padic` meets the contract the properties below ask of the solver:
`get_solve_J` calls it with the precision of the object (dr/get_solve_J.cc:28). -/
theorem C20_solver_contract {p N : Nat} [Fact p.Prime] (la : LinAlg (ZMod p)) (hla : LinAlgOK la)
    (flint : Bool) (precision : Nat) (hp : N ≤ precision) :
    SolverOK (fun T : CMat (ZMod (p ^ N)) => solveSystemPadic la flint T precision) :=
  fun T => C20_padic la hla flint T precision hp

example : (∃ la : LinAlg (ZMod 7), LinAlgOK la) ∧ 5 ≤ 5 := ⟨exists_linAlg (ZMod 7), le_refl _⟩

/-! ### C21 -/

/-- **C21 (matrix_J).**  For every object built by the constructor and every degree `l` from `d-1` to
`(n+1)d`, `matrix_J(l)` is the matrix of `(H_0, ..., H_n) ↦ Σ H_i ∂_i f`: `L` lists the monomials of
degree `l`, `S` those of degree `l-(d-1)`, and for all coordinates `h i j` of the `H_i` the product of
the matrix with the stacked coordinates is the coordinate vector of `Σ H_i ∂_i f`. -/
theorem C21_matrix_J {solve : Solver R} {p n d : Nat} {f : MonMap R} {D : DR R}
    (hC : Constructed solve p f n d D) (l : Nat) (h0 : d ≤ l + 1) (h1 : l ≤ (n + 1) * d) :
    ∃ L S T, IsTable n l L ∧ IsTable n ((l : Int) - (d - 1)) S ∧ matrixJ D l = .ok T ∧
      T.rows = L.length ∧ T.cols = (n + 1) * S.length ∧
      ∀ h : Fin (n + 1) → Nat → R,
        combo n L (fun r => ∑ i : Fin (n + 1), ∑ j ∈ Finset.range S.length,
            T.e r (i.val * S.length + j) * h i j)
          = ∑ i : Fin (n + 1), combo n S (h i) * pderiv i (toPoly (n + 1) f) := by
  obtain ⟨rfl, rfl, hI⟩ := hC.init
  have hD := hI.ok
  have hd := hD.hd
  obtain ⟨L, S, T, hL, hS, -, -, eT, hr, hc, hT⟩ := matrixJ_ok hD (l : Int) (by omega) (by exact_mod_cast h1)
  refine ⟨L, S, T, hL, hS, eT, hr, hc, fun h => ?_⟩
  have hf : DRpoly D = toPoly (D.n + 1) f := by rw [DRpoly, hI.f_eq]
  rw [← hf]
  have hcol : ∀ (i : Fin (D.n + 1)) j, j < S.length →
      combo D.n L (fun r => T.e r (i.val * S.length + j))
        = xpow R (ev D.n (S.getD j [])) * pderiv i (DRpoly D) := by
    intro i j hj
    have hhom : (xpow R (ev D.n (S.getD j [])) * pderiv i (DRpoly D)).IsHomogeneous l := by
      have h2 : l = ((l : Int) - (D.d - 1)).toNat + (D.d - 1) := by omega
      rw [h2]
      refine IsHomogeneous.mul ?_ (DRpoly_isHomogeneous hD).pderiv
      apply xpow_isHomogeneous
      rw [sum_ev_tuple (hS.tuple hj), Int.toNat_of_nonneg (by omega)]
    rw [← combo_coeff hL hhom]
    apply combo_congr
    intro r hr'
    rw [hT r i j hr' i.isLt hj, DRpoly, coeff_jac D.f hD.f_wf.1 i (hS.tuple hj).1 (hS.tuple hj).2.1
        (hL.tuple hr').1 (hL.tuple hr').2.1]
  calc combo D.n L (fun r => ∑ i : Fin (D.n + 1), ∑ j ∈ Finset.range S.length,
            T.e r (i.val * S.length + j) * h i j)
      = ∑ i : Fin (D.n + 1), ∑ j ∈ Finset.range S.length,
          h i j • combo D.n L (fun r => T.e r (i.val * S.length + j)) := by
        simp only [combo, Finset.sum_smul, Finset.smul_sum, smul_smul]
        rw [Finset.sum_comm]
        refine Finset.sum_congr rfl (fun i _ => ?_)
        rw [Finset.sum_comm]
        refine Finset.sum_congr rfl (fun j _ => Finset.sum_congr rfl (fun r _ => ?_))
        rw [mul_comm]
    _ = _ := by
        refine Finset.sum_congr rfl (fun i _ => ?_)
        rw [combo, Finset.sum_mul]
        refine Finset.sum_congr rfl (fun j hj => ?_)
        rw [hcol i j (Finset.mem_range.1 hj), smul_mul_assoc]

/-- **C21 (matrix_J, small degree).**  Below degree `d-1` the matrix has no columns. -/
theorem C21_matrix_J_small {solve : Solver R} {p n d : Nat} {f : MonMap R} {D : DR R}
    (hC : Constructed solve p f n d D) (l : Nat) (h0 : l + 1 < d) :
    ∃ L T, IsTable n l L ∧ matrixJ D l = .ok T ∧ T.rows = L.length ∧ T.cols = 0 := by
  obtain ⟨rfl, rfl, hI⟩ := hC.init
  obtain ⟨L, hL, -, e⟩ := matrixJ_small hI.ok (l : Int) (by omega) (by omega)
  exact ⟨L, _, hL, e, rfl, rfl⟩

/-- The elliptic curve, in degrees 4 and 1. -/
example : ∃ D, Constructed exSolve 5 exCurve 2 3 D ∧ 3 ≤ 4 + 1 ∧ 4 ≤ (2 + 1) * 3 ∧ 1 + 1 < 3 := by
  obtain ⟨D, h, -⟩ := exCurve_constructed
  exact ⟨D, h, by norm_num⟩

/-! ### C22 -/

theorem family_isHomogeneous {n : Nat} {l : Int} {L : List IVec} (h : IsTable n l L)
    (u : Fin (n + 1) → ℤ) (G : Nat → R) (e : Nat) (he : ∑ i, u i + l - (n + 1) = e) :
    (family n L u G).IsHomogeneous e := by
  apply IsHomogeneous.sum
  intro k hk
  rw [Finset.mem_range] at hk
  rw [smul_eq_C_mul]
  have := (isHomogeneous_C (Fin (n + 1)) (G k)).mul
    (xpow_isHomogeneous (R := R) (fun i => u i + ev n (L.getD k []) i - 1) e (by
      rw [Finset.sum_sub_distrib, Finset.sum_add_distrib, sum_ev_tuple (h.tuple hk), ← he]
      simp))
  rwa [zero_add] at this

/-- **C22.**  For every object built by the constructor, every `u >= 0` whose forms have pole order
`m >= 1`, every `v` of degree `d` with `u_i = 0` wherever `v_i = 0`, and every vector `G`:
`get_reduction_matrix_J(u, v)` returns a square matrix, `reduce_vector_J(u, v, G)` returns its product
`H` with `G`, the form `m! x^(u+v) G Ω / (x_0...x_n f^(m+1))` is cohomologous to
`(m-1)! x^u H Ω / (x_0...x_n f^m)`, and `H` vanishes at the coordinates not divisible by
`x_0 ... x_n`. -/
theorem C22_reduction_keeps_class {solve : Solver R} {p n d : Nat} {f : MonMap R} {D : DR R}
    (hC : Constructed solve p f n d D) (u v : IVec) (hu : u.length = n + 1) (hu0 : NonNeg u)
    (hv : IsTuple (n + 1) d v) (huv : ∀ i, ev n u i = 0 ∨ 0 < ev n v i) (m : Nat) (hm : 1 ≤ m)
    (hdeg : u.sum + d * n - n = m * d) :
    ∃ L M, IsTable n ((d : Int) * n - n) L ∧ getReductionMatrixJ solve D u v = .ok M ∧
      M.rows = L.length ∧ M.cols = L.length ∧
      ∀ G : CVec R, G.len = L.length → ∃ H, reduceVectorJ solve D u v G = .ok H ∧
        M.mulVec G = .ok H ∧ H.len = L.length ∧
        Cohomologous (toPoly (n + 1) f) d
          (form (m + 1) ((m.factorial : R) • family n L (ev n u + ev n v) G.e))
          (form m (((m - 1).factorial : R) • family n L (ev n u) H.e)) ∧
        ∀ r, r < L.length → ¬ Admissible n L (ev n u) r → H.e r = 0 := by
  obtain ⟨rfl, rfl, hI⟩ := hC.init
  have hD := hI.ok
  have hd := hD.hd
  obtain ⟨L, M, eL, hL, eM, hr, hc, -, -⟩ :=
    getReductionMatrixJ_ok hC.solver hD hI.top hu hu0 hv huv
  refine ⟨L, M, hL, eM, hr, hc, fun G hG => ?_⟩
  obtain ⟨M', H, eM', eH, hHl, hrel, hadm⟩ :=
    reduce_family hC.solver hD hI.top hu hu0 hv huv eL m hm hdeg G hG
  rw [eM] at eM'
  have hMM := Except.ok.inj eM'
  subst hMM
  refine ⟨H, by rw [reduceVectorJ_eq, eM]; exact eH, eH, hHl, ?_, hadm⟩
  have hf : DRpoly D = toPoly (D.n + 1) f := by rw [DRpoly, hI.f_eq]
  rw [← hf]
  have hnd : D.n + 1 ≤ m * D.d := le_trans (by omega) (Nat.le_mul_of_pos_left _ hm)
  have h1 : (family D.n L (ev D.n u + ev D.n v) G.e).IsHomogeneous ((m + 1) * D.d - (D.n + 1)) := by
    apply family_isHomogeneous hL
    rw [Nat.cast_sub (le_trans hnd (Nat.mul_le_mul_right _ (by omega)))]
    simp only [Pi.add_apply]
    rw [Finset.sum_add_distrib, sum_ev hu, sum_ev_tuple hv]
    push_cast
    linarith
  have h2 : (family D.n L (ev D.n u) H.e).IsHomogeneous (m * D.d - (D.n + 1)) := by
    apply family_isHomogeneous hL
    rw [Nat.cast_sub hnd, sum_ev hu]
    push_cast
    linarith
  have := toForms_Ex (by omega) _ (DRpoly_isHomogeneous hD) hrel
  rw [map_sub, toForms_homogeneous (by omega) (k := m + 1) (by
      have := Nat.mul_le_mul_right D.d (show m ≤ m + 1 by omega); omega) h1,
    toForms_homogeneous (by omega) (k := m) (by omega) h2, Nat.add_sub_cancel] at this
  exact this

/-- The elliptic curve, `u = (1,1,0)`, `v = (2,1,0)`: pole order 2. -/
example : ∃ D, Constructed exSolve 5 exCurve 2 3 D ∧ ([1, 1, 0] : IVec).length = 2 + 1 ∧
    NonNeg [1, 1, 0] ∧ IsTuple (2 + 1) 3 [2, 1, 0] ∧
    (∀ i, ev 2 [1, 1, 0] i = 0 ∨ 0 < ev 2 [2, 1, 0] i) ∧
    ([1, 1, 0] : IVec).sum + (3 : Nat) * (2 : Nat) - (2 : Nat) = (2 : Nat) * (3 : Nat) := by
  obtain ⟨D, h, -⟩ := exCurve_constructed
  refine ⟨D, h, rfl, by unfold NonNeg; decide, ?_, ?_, by decide⟩
  · unfold IsTuple NonNeg deg; decide
  · intro i; fin_cases i <;> decide

/-! ### C23 -/

/-- From the implicit relation to basis elements with their own pole order. -/
theorem basis_toForms {solve : Solver R} {D : DR R} (hD : DROk D) (hB : BasisOK solve D)
    {k e : Nat} (hk : e + D.n + 1 = k * D.d) {G : MvPolynomial (Fin (D.n + 1)) R}
    (hG : G.IsHomogeneous e) {H c : Nat → R}
    (hH : ∀ r, r < D.basis.length → H r = (poleFact D r : R) * c r)
    (hrel : G - ∑ r ∈ Finset.range D.basis.length, c r • xpow R (ev D.n (D.basis.getD r []))
        ∈ Ex (DRpoly D) D.d) :
    Cohomologous (DRpoly D) D.d (form k (((k - 1).factorial : R) • G)) (basisForm D.n D.d D.basis H) := by
  have hd := hD.hd
  have := toForms_Ex (by omega) _ (DRpoly_isHomogeneous hD) hrel
  rw [map_sub, toForms_homogeneous (by omega) hk hG, map_sum] at this
  have h2 : basisForm D.n D.d D.basis H = ∑ r ∈ Finset.range D.basis.length,
      toForms R D.n D.d (c r • xpow R (ev D.n (D.basis.getD r []))) := by
    rw [basisForm]
    refine Finset.sum_congr rfl (fun r hr => ?_)
    have hr := Finset.mem_range.1 hr
    have hmem : D.basis.getD r [] ∈ D.basis := by
      rw [getD_getElem _ _ _ hr]; exact List.getElem_mem hr
    obtain ⟨k', hk1, hk2, ht⟩ := hB.pole _ hmem
    have hle : D.n + 1 ≤ k' * D.d := le_trans (by omega) (Nat.le_mul_of_pos_left _ hk1)
    have hx : (xpow R (ev D.n (D.basis.getD r []))).IsHomogeneous (k' * D.d - (D.n + 1)) := by
      apply xpow_isHomogeneous
      rw [sum_ev_tuple ht, Nat.cast_sub hle]
      push_cast; rfl
    rw [map_smul, toForms_homogeneous (by omega) (k := k') (by omega) hx, hH r hr, poleFact,
      poleOrder_eq (by omega) ht, form, form, Finsupp.smul_single, Finsupp.smul_single, smul_smul,
      mul_comm]
  rw [Cohomologous, h2]
  exact this

/-- **C23.**  For every object built by the constructor and `1 <= k <= n`, the matrix
`get_final_reduction_matrix_J(k)` sends the coordinates `G` of a polynomial of degree `kd-(n+1)` to
coordinates `H` in the cohomology basis with `(k-1)! G Ω / f^k` cohomologous to `Σ H_j basis_j`, each
basis element with its own pole order and no factorial. -/
theorem C23_final_reduction [Nontrivial R] {solve : Solver R} {p n d : Nat} {f : MonMap R} {D : DR R}
    (hC : Constructed solve p f n d D) (k : Nat) (hk1 : 1 ≤ k) (hkn : k ≤ n) :
    ∃ L M, IsTable n ((k : Int) * d - (n + 1)) L ∧ finalMatJ solve D k = .ok M ∧
      M.rows = D.basis.length ∧ M.cols = L.length ∧
      ∀ G : CVec R, G.len = L.length → ∃ H, M.mulVec G = .ok H ∧ H.len = D.basis.length ∧
        Cohomologous (toPoly (n + 1) f) d
          (form k (((k - 1).factorial : R) • combo n L G.e)) (basisForm n d D.basis H.e) := by
  obtain ⟨rfl, rfl, hI⟩ := hC.init
  have hD := hI.ok
  have hd := hD.hd
  obtain ⟨L, M, c, eM, hM⟩ := finalMatJ_ok hC.solver hD hI.basis k hk1 hkn
  refine ⟨L, M, hM.table, eM, hM.rows, hM.cols, fun G hG => ?_⟩
  obtain ⟨H, c', eH, hHl, hfac, hrel⟩ := final_apply hM G hG
  refine ⟨H, eH, hHl, ?_⟩
  have hf : DRpoly D = toPoly (D.n + 1) f := by rw [DRpoly, hI.f_eq]
  rw [← hf]
  have hle : D.n + 1 ≤ k * D.d := le_trans (by omega) (Nat.le_mul_of_pos_left _ hk1)
  refine basis_toForms (e := k * D.d - (D.n + 1)) hD hI.basis (by omega) ?_ hfac hrel
  apply combo_isHomogeneous
  rw [Nat.cast_sub hle]
  push_cast
  exact hM.table

/-- The elliptic curve, pole order 2. -/
example : ∃ D, Constructed exSolve 5 exCurve 2 3 D ∧ 1 ≤ 2 ∧ 2 ≤ 2 := by
  obtain ⟨D, h, -⟩ := exCurve_constructed
  exact ⟨D, h, by norm_num⟩

/-! ### C24 -/

/-- **C24.**  For every object built by the constructor (in at least two variables) and every `u` with
positive entries and degree `m d`, `monomial_to_basis_J(u)` returns, without assertion failure or
non-termination, coordinates `H` with `(m-1)! x^u Ω / (x_0...x_n f^m)` cohomologous to
`Σ H_j basis_j`. -/
theorem C24_monomial_to_basis [Nontrivial R] {solve : Solver R} {p n d : Nat} {f : MonMap R} {D : DR R}
    (hC : Constructed solve p f n d D) (hn : 1 ≤ n) (u : IVec) (hu : u.length = n + 1)
    (hpos : ∀ x ∈ u, 0 < x) (m : Nat) (hm : u.sum = m * d) :
    ∃ H, monomialToBasisJ solve D u = .ok H ∧ H.len = D.basis.length ∧
      Cohomologous (toPoly (n + 1) f) d
        (form m (((m - 1).factorial : R) • xpow R (fun i => ev n u i - 1))) (basisForm n d D.basis H.e) := by
  obtain ⟨rfl, rfl, hI⟩ := hC.init
  have hD := hI.ok
  have hd := hD.hd
  obtain ⟨H, c, eH, hHl, hfac, hrel⟩ :=
    monomialToBasisJ_ok hC.solver hD hI.top hI.basis hn hu hpos m hm
  refine ⟨H, eH, hHl, ?_⟩
  have hf : DRpoly D = toPoly (D.n + 1) f := by rw [DRpoly, hI.f_eq]
  rw [← hf]
  have hge : (D.n : Int) + 1 ≤ u.sum := by
    rw [← sum_ev hu]
    calc (D.n : Int) + 1 = ∑ i : Fin (D.n + 1), 1 := by simp
      _ ≤ _ := Finset.sum_le_sum (fun i _ => by
        have hi : i.val < u.length := by rw [hu]; exact i.isLt
        rw [ev, getD_getElem _ _ _ hi]
        have := hpos _ (List.getElem_mem hi)
        omega)
  have hle : D.n + 1 ≤ m * D.d := by rw [hm] at hge; exact_mod_cast hge
  refine basis_toForms (e := m * D.d - (D.n + 1)) hD hI.basis (by omega) ?_ hfac hrel
  apply xpow_isHomogeneous
  rw [Finset.sum_sub_distrib, sum_ev hu, hm, Nat.cast_sub hle]
  simp

set_option maxRecDepth 100000 in
/-- The cubic in two variables, pole order 3: the call returns `(0, 14)`. -/
example : (∃ D, Constructed exSolve 5 exCubic 1 3 D) ∧ (1 : Nat) ≤ 1 ∧ ([5, 4] : IVec).length = 1 + 1 ∧
    (∀ x ∈ ([5, 4] : IVec), 0 < x) ∧ ([5, 4] : IVec).sum = (3 : Nat) * (3 : Nat) ∧
    (do let D ← DR.init exSolve 5 exCubic
        let H ← monomialToBasisJ exSolve D [5, 4]
        .ok ((List.range H.len).map H.e) : Res (List (ZMod 25))) = .ok [0, 14] := by
  obtain ⟨D, h, -⟩ := exCubic_constructed
  exact ⟨⟨D, h⟩, le_refl _, rfl, by decide, by decide, by decide +kernel⟩

/-! ### C30 -/

/-- **C30.**  If `w >= 0`, at most `d` entries are positive and the degree is at least `d`, the
search returns `v` of degree `d` with `0 <= v <= w`, positive exactly where `w` is; so `w - v` and `v`
meet the precondition of the reduction step. -/
theorem C30_direction (d : Nat) (w : IVec) (hw : NonNeg w)
    (hp : (w.filter (fun x => decide (0 < x))).length ≤ d) (hs : (d : Int) ≤ deg w) :
    ∃ v, direction d w = .ok v ∧ v.length = w.length ∧ deg v = d ∧
      (∀ i, 0 ≤ v.getD i 0 ∧ v.getD i 0 ≤ w.getD i 0 ∧ (0 < w.getD i 0 ↔ 0 < v.getD i 0)) ∧
      ∀ i, w.getD i 0 - v.getD i 0 = 0 ∨ 0 < v.getD i 0 := by
  obtain ⟨v, e, hb, hsum⟩ := direction_ok hw hp hs
  exact ⟨v, e, hb.length, hsum, hb.getD, fun i => by have := hb.getD i; omega⟩

/-- Also when the degree is too small the behaviour is known: the search never ends. -/
theorem C30_direction_too_small (d : Nat) (w : IVec) (hw : NonNeg w)
    (hp : (w.filter (fun x => decide (0 < x))).length ≤ d) (hs : deg w < d) :
    direction d w = .error .diverge := by
  obtain ⟨h1, h2⟩ := below_init hw
  have key : ∀ (k : Nat) (v : IVec), Below w v → w.sum < v.sum + k → dirLoop w k v = .error .diverge := by
    intro k
    induction k with
    | zero => intro v hv hlt; have := below_sum hv; simp at hlt; omega
    | succ k ih =>
      intro v hv hlt
      rw [dirLoop]
      by_cases hvs : v.sum < w.sum
      · obtain ⟨v', e, hb, hs'⟩ := bumpFirst_ok hv hvs
        rw [e]
        exact ih v' hb (by push_cast at hlt; omega)
      · have hnone : ∀ {w v : IVec}, Below w v → w.sum ≤ v.sum → bumpFirst w v = none := by
          intro w v hb
          induction hb with
          | nil => intro _; rfl
          | @cons x y w v hxy hwv ih =>
            intro hle
            have := below_sum hwv
            simp only [List.sum_cons] at hle
            rw [bumpFirst, if_neg (by omega), ih (by omega)]
            rfl
        rw [hnone hv (by omega)]
  rw [direction, sumVec_eq_sum, h2]
  refine key _ _ h1 ?_
  rw [h2]
  have : posCount w ≤ d := hp
  have hs' : w.sum < d := hs
  have : (((d : Int) - posCount w).toNat : Int) = d - posCount w := Int.toNat_of_nonneg (by omega)
  rw [this]; omega

example : direction 4 [3, 0, 5] = .ok [3, 0, 1] ∧ direction 4 [1, 0, 2] = .error .diverge ∧
    NonNeg [3, 0, 5] ∧ (4 : Nat) ≤ deg [3, 0, 5] ∧ deg [1, 0, 2] < (4 : Nat) := by
  refine ⟨by decide, by decide, by unfold NonNeg; decide, by unfold deg; decide, by unfold deg; decide⟩

/-! ### C45 -/

/-- **C45 (de_Rham_local).**  For every object built by the constructor: the basis has no repeated
monomial; looking up the `j`-th basis monomial in the reverse dictionary gives `j` and other monomials
are absent; the basis is the concatenation of `n` blocks, block `i` consisting of monomials of degree
`(i+1)d-(n+1)`, that is of pole order `i+1`, and having as many elements as the coefficient of
`(1 + X + ... + X^(d-2))^(n+1)` in that degree; so the length is the sum of these coefficients. -/
theorem C45_basis {solve : Solver R} {p n d : Nat} {f : MonMap R} {D : DR R}
    (hC : Constructed solve p f n d D) :
    D.basis.Nodup ∧
    (∀ j, j < D.basis.length → D.basisDict.find? (D.basis.getD j []) = some j) ∧
    (∀ t, t ∉ D.basis → D.basisDict.find? t = none) ∧
    ∃ blocks : Nat → List IVec, D.basis = (List.range n).flatMap blocks ∧
      (∀ i, i < n → ∀ t ∈ blocks i, IsTuple (n + 1) (((i : Int) + 1) * d - (n + 1)) t ∧
        poleOrder n d t = i + 1) ∧
      (∀ i, i < n → ((blocks i).length : ℤ)
        = ((∑ j ∈ Finset.range (d - 1), (Polynomial.X : Polynomial ℤ) ^ j) ^ (n + 1)).coeff
            ((i + 1) * d - (n + 1))) ∧
      (D.basis.length : ℤ) = ∑ i ∈ Finset.range n,
        ((∑ j ∈ Finset.range (d - 1), (Polynomial.X : Polynomial ℤ) ^ j) ^ (n + 1)).coeff
            ((i + 1) * d - (n + 1)) := by
  obtain ⟨rfl, rfl, hI⟩ := hC.init
  have hd := hI.ok.hd
  have hcount : ∀ i, i < D.n → ((basisBlock solve D i).length : ℤ)
        = ((∑ j ∈ Finset.range (D.d - 1), (Polynomial.X : Polynomial ℤ) ^ j) ^ (D.n + 1)).coeff
            ((i + 1) * D.d - (D.n + 1)) := by
    intro i hi
    rw [← (hI.block i hi).count, hilbertJ_eq]
  refine ⟨hI.basis.nodup, ?_, ?_, basisBlock solve D, hI.blocks, ?_, hcount, ?_⟩
  · intro j hj
    rw [hI.basis.dict, getD_getElem _ _ _ hj]
    exact find?_buildDict_of_nodup _ hI.basis.nodup j hj
  · intro t ht
    rw [hI.basis.dict]
    exact find?_buildDict_none _ _ ht
  · intro i hi t ht
    have := (hI.block i hi).tuple t ht
    exact ⟨this, poleOrder_eq (by omega) (by push_cast; exact this)⟩
  · have hlen : ∀ m, ((((List.range m).flatMap (basisBlock solve D)).length : ℕ) : ℤ)
        = ∑ i ∈ Finset.range m, ((basisBlock solve D i).length : ℤ) := by
      intro m
      induction m with
      | zero => simp
      | succ m ih =>
        rw [List.range_succ, List.flatMap_append, List.flatMap_singleton, List.length_append,
          Finset.sum_range_succ]
        push_cast
        rw [ih]
    rw [hI.blocks, hlen]
    exact Finset.sum_congr rfl (fun i hi => hcount i (Finset.mem_range.1 hi))

example : ∃ D, Constructed exSolve 5 exCurve 2 3 D ∧ D.basis = [[0, 0, 0], [1, 1, 1]] := exCurve_constructed

end Verif
