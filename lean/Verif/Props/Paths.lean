import Verif.Lemmas.PathIndep
import Verif.Props.DeRham
import Verif.Lemmas.MonoPadic

/-!
Property C25: the result of a reduction does not depend on the path, nor on the implementation of the
linear algebra.  The solver is `solve_system_padic` over `Z/p^N`, as the code calls it
(dr/get_solve_J.cc:28).
-/

namespace Verif

open Spec MvPolynomial

local instance : Fact (Nat.Prime 5) := ⟨by norm_num⟩

set_option maxRecDepth 100000 in
/-- The constructor accepts the elliptic curve `2 x^3 + y^3 + z^3` modulo 25 with `solve_system_padic`. -/
theorem exCurve_padic (la : LinAlg (ZMod 5)) (hla : LinAlgOK la) (flint : Bool) :
    ∃ D, Constructed (padicSolver 5 2 la flint 2) 5 exCurve 2 3 D ∧ D.basis = [[0, 0, 0], [1, 1, 1]] := by
  obtain ⟨D, hD, hb⟩ := isOk_of_bind (g := DR.basis) (x := DR.init (certSolver (zmodInv 25)) 5 exCurve)
    (b := [[0, 0, 0], [1, 1, 1]]) (by decide +kernel)
  refine ⟨D, ⟨padicSolver_ok hla flint (le_refl 2), ?_, ?_, choose_small (by decide), ?_⟩, hb⟩
  · unfold exCurve WFPoly NonNeg LexLt; decide
  · unfold exCurve; decide
  · exact init_refine (fun T BU h => certSolver_padic (p := 5) (N := 2) (by norm_num) la hla flint 2 (le_refl 2)
      (zmodInv_ok 25) T BU h) hD

/-- Two paths from `(4,4,0)`, ending at different points. -/
theorem exPaths : IsPath 2 3 (ev 2 [4, 4, 0]) [[2, 1, 0], [1, 2, 0]] ∧
    IsPath 2 3 (ev 2 [4, 4, 0]) [[1, 2, 0], [1, 2, 0]] := by
  constructor
  all_goals
    unfold IsPath IsPath IsPath IsTuple NonNeg deg
    decide

section

variable {p N : ℕ} [Fact p.Prime]

theorem nontrivial_pow (hN : 1 ≤ N) : Nontrivial (ZMod (p ^ N)) := by
  have : Fact (1 < p ^ N) := ⟨Nat.one_lt_pow (by omega) (Fact.out : p.Prime).one_lt⟩
  exact ZMod.nontrivial _

/-- **C25 (basis).**  For every object built by the constructor, the only combination of the basis
monomials that the relations make zero is the trivial one. -/
theorem C25_basis_independent (hN : 1 ≤ N) (la : LinAlg (ZMod p)) (hla : LinAlgOK la) (flint : Bool)
    (precision : ℕ) (hprec : N ≤ precision) {q n d : ℕ} {f : MonMap (ZMod (p ^ N))} {D : DR (ZMod (p ^ N))}
    (hC : Constructed (padicSolver p N la flint precision) q f n d D) (c : ℕ → ZMod (p ^ N))
    (h : ∑ r ∈ Finset.range D.basis.length, c r • xpow (ZMod (p ^ N)) (ev n (D.basis.getD r []))
      ∈ Ex (toPoly (n + 1) f) d) :
    ∀ r, r < D.basis.length → c r = 0 := by
  obtain ⟨rfl, rfl, hI⟩ := hC.init
  have hf : DRpoly D = toPoly (D.n + 1) f := by rw [DRpoly, hI.f_eq]
  rw [← hf] at h
  exact basis_indep hN hla hprec hI c h

/-- The elliptic curve modulo 25. -/
example : ∃ la : LinAlg (ZMod 5), LinAlgOK la ∧
    ∃ D, Constructed (padicSolver 5 2 la true 2) 5 exCurve 2 3 D ∧ D.basis.length = 2 := by
  obtain ⟨la, hla⟩ := exists_linAlg (ZMod 5)
  obtain ⟨D, h, hb⟩ := exCurve_padic la hla true
  exact ⟨la, hla, D, h, by rw [hb]; rfl⟩

/-- **C25 (paths).**  For every object built by the constructor, every `u >= 0` and any two paths of
reduction directions from `u` down to degree `n`: both runs (reductions, inclusion, final reduction) return
a matrix, and the two matrices are equal. -/
theorem C25_path_independence (hN : 1 ≤ N) (la : LinAlg (ZMod p)) (hla : LinAlgOK la) (flint : Bool)
    (precision : ℕ) (hprec : N ≤ precision) {q n d : ℕ} {f : MonMap (ZMod (p ^ N))} {D : DR (ZMod (p ^ N))}
    (hC : Constructed (padicSolver p N la flint precision) q f n d D) (hn : 1 ≤ n) (u : IVec)
    (hu : u.length = n + 1) (hu0 : NonNeg u) (vs vs' : List IVec) (hv : IsPath n d (ev n u) vs)
    (hv' : IsPath n d (ev n u) vs') :
    ∃ P P' : CMat (ZMod (p ^ N)), pathMatrixJ (padicSolver p N la flint precision) D u vs = .ok P ∧
      pathMatrixJ (padicSolver p N la flint precision) D u vs' = .ok P' ∧
      P.rows = D.basis.length ∧ P'.rows = D.basis.length ∧
      (∀ L, IsTable n ((d : Int) * n - n) L → P.cols = L.length ∧ P'.cols = L.length) ∧
      ∀ r k, r < P.rows → k < P.cols → P.e r k = P'.e r k := by
  obtain ⟨rfl, rfl, hI⟩ := hC.init
  have := nontrivial_pow (p := p) hN
  have hD := hI.ok
  have hd := hD.hd
  obtain ⟨listG, hG, eG, -⟩ := D.list_ok hD ((D.d : Int) * D.n - D.n) (by nlinarith) (by nlinarith)
  obtain ⟨P, c, e1, r1, k1, f1, g1⟩ := pathMatrixJ_ok hC.solver hD hI.top hI.basis hn eG u vs hu hu0 hv
  obtain ⟨P', c', e2, r2, k2, f2, g2⟩ := pathMatrixJ_ok hC.solver hD hI.top hI.basis hn eG u vs' hu hu0 hv'
  refine ⟨P, P', e1, e2, r1, r2, ?_, ?_⟩
  · intro L hL
    have : L.length = listG.length := by rw [hL.eq hG]
    omega
  · intro r k hr hk
    have h1 := Submodule.sub_mem _ (g2 k (by omega)) (g1 k (by omega))
    rw [sub_sub_sub_cancel_left, ← Finset.sum_sub_distrib] at h1
    have h2 := basis_indep hN hla hprec hI (fun r => c r k - c' r k) (by
      simp only [sub_smul]; exact h1) r (by omega)
    rw [f1 r k (by omega) (by omega), f2 r k (by omega) (by omega), sub_eq_zero.1 h2]

/-- The elliptic curve modulo 25 and two paths from `(4,4,0)`. -/
example : ∃ la : LinAlg (ZMod 5), LinAlgOK la ∧
    (∃ D, Constructed (padicSolver 5 2 la false 2) 5 exCurve 2 3 D) ∧ NonNeg [4, 4, 0] ∧
    IsPath 2 3 (ev 2 [4, 4, 0]) [[2, 1, 0], [1, 2, 0]] ∧ IsPath 2 3 (ev 2 [4, 4, 0]) [[1, 2, 0], [1, 2, 0]] := by
  obtain ⟨la, hla⟩ := exists_linAlg (ZMod 5)
  obtain ⟨D, h, -⟩ := exCurve_padic la hla false
  exact ⟨la, hla, ⟨D, h⟩, by unfold NonNeg; decide, exPaths⟩

/-- **C25 (monomial_to_basis_J).**  Every column of the matrix of a path is what `monomial_to_basis_J`
returns for that monomial, whatever the path. -/
theorem C25_path_column (hN : 1 ≤ N) (la : LinAlg (ZMod p)) (hla : LinAlgOK la) (flint : Bool)
    (precision : ℕ) (hprec : N ≤ precision) {q n d : ℕ} {f : MonMap (ZMod (p ^ N))} {D : DR (ZMod (p ^ N))}
    (hC : Constructed (padicSolver p N la flint precision) q f n d D) (hn : 1 ≤ n) (u : IVec)
    (hu : u.length = n + 1) (hu0 : NonNeg u) (vs : List IVec) (hv : IsPath n d (ev n u) vs)
    (L : List IVec) (hL : IsTable n ((d : Int) * n - n) L) (k : ℕ) (hk : k < L.length) (w : IVec)
    (hwl : w.length = n + 1) (hw : ev n w = ev n u + ev n (L.getD k [])) (hpos : ∀ x ∈ w, 0 < x) :
    ∃ (P : CMat (ZMod (p ^ N))) (H : CVec (ZMod (p ^ N))),
      pathMatrixJ (padicSolver p N la flint precision) D u vs = .ok P ∧
      monomialToBasisJ (padicSolver p N la flint precision) D w = .ok H ∧ P.rows = H.len ∧
      ∀ r, r < P.rows → P.e r k = H.e r := by
  obtain ⟨rfl, rfl, hI⟩ := hC.init
  have := nontrivial_pow (p := p) hN
  have hD := hI.ok
  have hd := hD.hd
  obtain ⟨listG, hG, eG, -⟩ := D.list_ok hD ((D.d : Int) * D.n - D.n) (by nlinarith) (by nlinarith)
  obtain rfl := hL.eq hG
  obtain ⟨P, c, e1, r1, k1, f1, g1⟩ := pathMatrixJ_ok hC.solver hD hI.top hI.basis hn eG u vs hu hu0 hv
  obtain ⟨-, -, -, -, -, -, hsum, -, -, -⟩ :=
    pathLoopJ_ok hC.solver hD hI.top hn eG vs u (CMat.one L.length) hu hu0 hv rfl
  have hws : w.sum = ((vs.length + D.n : ℕ) : ℤ) * D.d := by
    rw [← sum_ev hwl, hw, Finset.sum_congr rfl (fun i _ => Pi.add_apply _ _ i), Finset.sum_add_distrib,
      sum_ev hu, sum_ev_tuple (hL.tuple hk), hsum]
    push_cast; ring
  obtain ⟨H, c', e2, l2, f2, g2⟩ := monomialToBasisJ_ok hC.solver hD hI.top hI.basis hn hwl hpos _ hws
  refine ⟨P, H, e1, e2, by omega, fun r hr => ?_⟩
  rw [hw] at g2
  have h1 := Submodule.sub_mem _ g2 (g1 k hk)
  have e3 : (fun i => (ev D.n u + ev D.n (L.getD k [])) i - 1)
      = fun i => ev D.n u i + ev D.n (L.getD k []) i - 1 := rfl
  rw [e3, sub_sub_sub_cancel_left, ← Finset.sum_sub_distrib] at h1
  have h2 := basis_indep hN hla hprec hI (fun r => c r k - c' r) (by
    simp only [sub_smul]; exact h1) r (by omega)
  rw [f1 r k (by omega) (by omega), f2 r (by omega), sub_eq_zero.1 h2]

/-- The monomial `(5,5,2)`: `(4,4,0)` and the entry `(1,1,2)` of the list of degree 4. -/
example : NonNeg [4, 4, 0] ∧ IsPath 2 3 (ev 2 [4, 4, 0]) [[2, 1, 0], [1, 2, 0]] ∧
    IsTuple (2 + 1) ((3 : Nat) * (2 : Nat) - (2 : Nat)) [1, 1, 2] ∧
    ev 2 [5, 5, 2] = ev 2 [4, 4, 0] + ev 2 [1, 1, 2] ∧ ∀ x ∈ ([5, 5, 2] : IVec), 0 < x := by
  refine ⟨by unfold NonNeg; decide, exPaths.1, by unfold IsTuple NonNeg deg; decide, ?_, by decide⟩
  funext i; fin_cases i <;> decide

/-- **C25 (test_paths_J).**  Whatever the random choices, as long as they are paths, `test_paths_J` returns
`true`. -/
theorem C25_test_paths (hN : 1 ≤ N) (la : LinAlg (ZMod p)) (hla : LinAlgOK la) (flint : Bool)
    (precision : ℕ) (hprec : N ≤ precision) {q n d : ℕ} {f : MonMap (ZMod (p ^ N))} {D : DR (ZMod (p ^ N))}
    (hC : Constructed (padicSolver p N la flint precision) q f n d D) (hn : 1 ≤ n)
    (att : List (IVec × List (List IVec)))
    (hatt : ∀ a ∈ att, a.1.length = n + 1 ∧ NonNeg a.1 ∧ ∀ vs ∈ a.2, IsPath n d (ev n a.1) vs) :
    testPathsJ (padicSolver p N la flint precision) D att = .ok true := by
  have hone : ∀ (u : IVec), u.length = n + 1 → NonNeg u → ∀ (paths : List (List IVec)),
      (∀ vs ∈ paths, IsPath n d (ev n u) vs) → ∀ last : Option (CMat (ZMod (p ^ N))),
      (∀ M0, last = some M0 → ∃ vs0, IsPath n d (ev n u) vs0 ∧
        pathMatrixJ (padicSolver p N la flint precision) D u vs0 = .ok M0) →
      testPathsLoop (padicSolver p N la flint precision) D u paths last = .ok true := by
    intro u hu hu0 paths
    induction paths with
    | nil => intro _ last _; rfl
    | cons vs paths ih =>
      intro hp last hlast
      have hvs := hp vs (List.mem_cons_self ..)
      have hrest := fun vs h => hp vs (List.mem_cons_of_mem _ h)
      obtain ⟨P, -, e1, -, -⟩ := C25_path_independence hN la hla flint precision hprec hC hn u hu hu0 vs vs hvs hvs
      have hnext := ih hrest (some P) (by
        intro M0 h; cases h; exact ⟨vs, hvs, e1⟩)
      rw [testPathsLoop, e1, Res.bind_ok]
      cases last with
      | none => exact hnext
      | some M0 =>
        obtain ⟨vs0, hv0, e0⟩ := hlast M0 rfl
        obtain ⟨Q, Q', q1, q2, r1, r2, hc, hE⟩ :=
          C25_path_independence hN la hla flint precision hprec hC hn u hu hu0 vs0 vs hv0 hvs
        rw [e0] at q1
        rw [e1] at q2
        obtain rfl := Except.ok.inj q1
        obtain rfl := Except.ok.inj q2
        obtain ⟨rfl, rfl, hI⟩ := hC.init
        have hd := hI.ok.hd
        obtain ⟨L, hL, -, -⟩ := D.list_ok hI.ok ((D.d : Int) * D.n - D.n) (by nlinarith) (by nlinarith)
        obtain ⟨c1, c2⟩ := hc L hL
        have : CMat.eqv M0 P = true := by
          simp only [CMat.eqv, Bool.and_eq_true, decide_eq_true_eq, List.all_eq_true, List.mem_range]
          exact ⟨⟨by omega, by omega⟩, fun r hr k hk => hE r k hr hk⟩
        simp only
        rw [if_pos this]
        exact hnext
  induction att with
  | nil => rfl
  | cons a att ih =>
    obtain ⟨u, paths⟩ := a
    obtain ⟨h1, h2, h3⟩ := hatt _ (List.mem_cons_self ..)
    rw [testPathsJ, hone u h1 h2 paths h3 none (by intro M0 h; cases h), Res.bind_ok, if_pos rfl]
    exact ih (fun a h => hatt a (List.mem_cons_of_mem _ h))

/-- One attempt with the two paths. -/
example : ∀ a ∈ [(([4, 4, 0] : IVec), ([[[2, 1, 0], [1, 2, 0]], [[1, 2, 0], [1, 2, 0]]] : List (List IVec)))],
    a.1.length = 2 + 1 ∧ NonNeg a.1 ∧ ∀ vs ∈ a.2, IsPath 2 3 (ev 2 a.1) vs := by
  intro a ha
  rw [List.mem_singleton] at ha
  subst ha
  refine ⟨rfl, by unfold NonNeg; decide, fun vs hvs => ?_⟩
  simp only [List.mem_cons, List.not_mem_nil, or_false] at hvs
  rcases hvs with rfl | rfl
  · exact exPaths.1
  · exact exPaths.2

/-- **C25 (implementation).**  The FLINT and NTL variants, whatever the linear algebra library does within
its contract, build the same object; and `monomial_to_basis_J` returns the same coordinates with both. -/
theorem C25_solver_independent (hN : 1 ≤ N) (la la' : LinAlg (ZMod p)) (hla : LinAlgOK la)
    (hla' : LinAlgOK la') (flint flint' : Bool) (precision : ℕ) (hprec : N ≤ precision) {q : ℕ}
    {f : MonMap (ZMod (p ^ N))} :
    DR.init (padicSolver p N la flint precision) q f = DR.init (padicSolver p N la' flint' precision) q f ∧
    ∀ {n d : ℕ} {D : DR (ZMod (p ^ N))}, Constructed (padicSolver p N la flint precision) q f n d D → 1 ≤ n →
      ∀ (u : IVec), u.length = n + 1 → (∀ x ∈ u, 0 < x) → ∀ m : ℕ, u.sum = m * d →
      ∃ H H' : CVec (ZMod (p ^ N)), monomialToBasisJ (padicSolver p N la flint precision) D u = .ok H ∧
        monomialToBasisJ (padicSolver p N la' flint' precision) D u = .ok H' ∧ H.len = H'.len ∧
        ∀ r, r < H.len → H.e r = H'.e r := by
  have hinit := init_congr (s := padicSolver p N la flint precision)
    (s' := padicSolver p N la' flint' precision) (fun T => by
      obtain ⟨B, U, e, -⟩ := C20_padic la hla flint T precision hprec
      obtain ⟨B', U', e', -⟩ := C20_padic la' hla' flint' T precision hprec
      have := (C20_same_basis la la' hla hla' flint flint' T precision hprec B B' U U' e e').1
      simp only [padicSolver, e, e', Except.map, this]) q f
  refine ⟨hinit, fun {n d D} hC hn u hu hpos m hm => ?_⟩
  have hC' : Constructed (padicSolver p N la' flint' precision) q f n d D :=
    ⟨padicSolver_ok hla' flint' hprec, hC.wf, hC.hom, hC.size, by rw [← hinit]; exact hC.built⟩
  have := nontrivial_pow (p := p) hN
  obtain ⟨rfl, rfl, hI⟩ := hC.init
  obtain ⟨-, -, hI'⟩ := hC'.init
  obtain ⟨H, c, e1, l1, f1, g1⟩ := monomialToBasisJ_ok hC.solver hI.ok hI.top hI.basis hn hu hpos m hm
  obtain ⟨H', c', e2, l2, f2, g2⟩ := monomialToBasisJ_ok hC'.solver hI'.ok hI'.top hI'.basis hn hu hpos m hm
  refine ⟨H, H', e1, e2, by omega, fun r hr => ?_⟩
  have h1 := Submodule.sub_mem _ g2 g1
  rw [sub_sub_sub_cancel_left, ← Finset.sum_sub_distrib] at h1
  have h2 := basis_indep hN hla hprec hI (fun r => c r - c' r) (by
    simp only [sub_smul]; exact h1) r (by omega)
  rw [f1 r (by omega), f2 r (by omega), sub_eq_zero.1 h2]

end

/-- The elliptic curve modulo 25, both implementations; `u = (5,5,2)` has pole order 4. -/
example : ∃ la : LinAlg (ZMod 5), LinAlgOK la ∧ ∃ D, Constructed (padicSolver 5 2 la true 2) 5 exCurve 2 3 D ∧
    Constructed (padicSolver 5 2 la false 2) 5 exCurve 2 3 D ∧ ([5, 5, 2] : IVec).sum = (4 : Nat) * (3 : Nat) := by
  obtain ⟨la, hla⟩ := exists_linAlg (ZMod 5)
  obtain ⟨D, h, -⟩ := exCurve_padic la hla true
  refine ⟨la, hla, D, h, ⟨padicSolver_ok hla false (le_refl 2), h.wf, h.hom, h.size, ?_⟩, by decide⟩
  rw [← (C25_solver_independent (p := 5) (N := 2) (by norm_num) la la hla hla true false 2 (le_refl 2)).1]
  exact h.built

end Verif
