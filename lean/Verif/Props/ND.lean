import Verif.Lemmas.NDPaths
import Verif.Model.FrobND
import Verif.Props.Paths

/-!
The non-degenerate object: properties C21, C25, C30 and C45 (their second halves), C34 and C48.
-/

namespace Verif

open Spec MvPolynomial

variable {R : Type} [CommRing R]

local instance : Fact (Nat.Prime 5) := ⟨by norm_num⟩

/-! ### Objects for the examples -/

set_option maxRecDepth 100000 in
/-- The constructor accepts the cubic in two variables. -/
theorem exCubic_constructedND :
    ∃ N, ConstructedND exSolve 5 exCubic 1 3 N ∧ N.ndBasis = [[0, 0], [1, 2], [2, 1]] := by
  obtain ⟨N, hN, hb⟩ := isOk_of_bind (g := ND.ndBasis) (x := ND.init exSolve 5 exCubic)
    (b := [[0, 0], [1, 2], [2, 1]]) (by decide +kernel)
  refine ⟨N, ⟨exSolve_ok, ?_, ?_, choose_small (by decide), hN⟩, hb⟩
  · unfold exCubic WFPoly NonNeg LexLt; decide
  · unfold exCubic; decide

set_option maxRecDepth 100000 in
/-- The same with `solve_system_padic`. -/
theorem exCubic_padicND (la : LinAlg (ZMod 5)) (hla : LinAlgOK la) (flint : Bool) :
    ∃ N, ConstructedND (padicSolver 5 2 la flint 2) 5 exCubic 1 3 N ∧ N.ndBasis = [[0, 0], [1, 2], [2, 1]] := by
  obtain ⟨N, hN, hb⟩ := isOk_of_bind (g := ND.ndBasis) (x := ND.init (certSolver (zmodInv 25)) 5 exCubic)
    (b := [[0, 0], [1, 2], [2, 1]]) (by decide +kernel)
  refine ⟨N, ⟨padicSolver_ok hla flint (le_refl 2), ?_, ?_, choose_small (by decide), ?_⟩, hb⟩
  · unfold exCubic WFPoly NonNeg LexLt; decide
  · unfold exCubic; decide
  · exact initND_refine (fun T BU h => certSolver_padic (p := 5) (N := 2) (by norm_num) la hla flint 2 (le_refl 2)
      (zmodInv_ok 25) T BU h) hN

/-! ### C21 -/

/-- **C21 (matrix_ND).**  For every object built by the constructor and every degree `l` from `d` to
`(n+1)d`, `matrix_ND(l)` is the matrix of `(H_0, ..., H_n) ↦ Σ H_i x_i ∂_i f`: `L` lists the monomials of
degree `l`, `S` those of degree `l-d`, and for all coordinates `h i j` of the `H_i` the product of the matrix
with the stacked coordinates is the coordinate vector of `Σ H_i x_i ∂_i f`. -/
theorem C21_matrix_ND {solve : Solver R} {p n d : Nat} {f : MonMap R} {D : DR R}
    (hC : Constructed solve p f n d D) (l : Nat) (h0 : d ≤ l) (h1 : l ≤ (n + 1) * d) :
    ∃ L S T, IsTable n l L ∧ IsTable n ((l : Int) - d) S ∧ matrixND D l = .ok T ∧
      T.rows = L.length ∧ T.cols = (n + 1) * S.length ∧
      ∀ h : Fin (n + 1) → Nat → R,
        combo n L (fun r => ∑ i : Fin (n + 1), ∑ j ∈ Finset.range S.length,
            T.e r (i.val * S.length + j) * h i j)
          = ∑ i : Fin (n + 1), combo n S (h i) * (X i * pderiv i (toPoly (n + 1) f)) := by
  obtain ⟨rfl, rfl, hI⟩ := hC.init
  have hD := hI.ok
  have hd := hD.hd
  obtain ⟨L, S, T, hL, hS, -, -, eT, hr, hc, hT⟩ := matrixND_ok hD (l : Int) (by omega) (by exact_mod_cast h1)
  refine ⟨L, S, T, hL, hS, eT, hr, hc, fun h => ?_⟩
  have hf : DRpoly D = toPoly (D.n + 1) f := by rw [DRpoly, hI.f_eq]
  rw [← hf]
  have hcol : ∀ (i : Fin (D.n + 1)) j, j < S.length →
      combo D.n L (fun r => T.e r (i.val * S.length + j))
        = xpow R (ev D.n (S.getD j [])) * (X i * pderiv i (DRpoly D)) := by
    intro i j hj
    have hhom : (xpow R (ev D.n (S.getD j [])) * xd i (DRpoly D)).IsHomogeneous l := by
      have h2 : l = ((l : Int) - D.d).toNat + D.d := by omega
      rw [h2]
      refine IsHomogeneous.mul ?_ (xd_isHomogeneous hD i)
      apply xpow_isHomogeneous
      rw [sum_ev_tuple (hS.tuple hj), Int.toNat_of_nonneg (by omega)]
    rw [← xd, ← combo_coeff hL hhom]
    apply combo_congr
    intro r hr'
    rw [hT r i j hr' i.isLt hj, DRpoly, coeff_tor D.f hD.f_wf.1 i (hS.tuple hj).1 (hS.tuple hj).2.1
        (hL.tuple hr').1 (hL.tuple hr').2.1]
  calc combo D.n L (fun r => ∑ i : Fin (D.n + 1), ∑ j ∈ Finset.range S.length,
            T.e r (i.val * S.length + j) * h i j)
      = ∑ i : Fin (D.n + 1), ∑ j ∈ Finset.range S.length,
          h i j • combo D.n L (fun r => T.e r (i.val * S.length + j)) := by
        simp only [combo, Finset.sum_smul, Finset.smul_sum, smul_smul]
        rw [Finset.sum_comm]
        refine Finset.sum_congr rfl (fun i _ => ?_)
        rw [Finset.sum_comm]
        refine Finset.sum_congr rfl (fun j _ => Finset.sum_congr rfl (fun r _ => ?_))
        rw [mul_comm]
    _ = _ := by
        refine Finset.sum_congr rfl (fun i _ => ?_)
        rw [combo, Finset.sum_mul]
        refine Finset.sum_congr rfl (fun j hj => ?_)
        rw [hcol i j (Finset.mem_range.1 hj), smul_mul_assoc]

/-- **C21 (matrix_ND, small degree).**  Below degree `d` the matrix has no columns. -/
theorem C21_matrix_ND_small {solve : Solver R} {p n d : Nat} {f : MonMap R} {D : DR R}
    (hC : Constructed solve p f n d D) (l : Nat) (h0 : l < d) :
    ∃ L T, IsTable n l L ∧ matrixND D l = .ok T ∧ T.rows = L.length ∧ T.cols = 0 := by
  obtain ⟨rfl, rfl, hI⟩ := hC.init
  obtain ⟨L, hL, -, e⟩ := matrixND_small hI.ok (l : Int) (by omega) (by omega)
  exact ⟨L, _, hL, e, rfl, rfl⟩

/-- The elliptic curve, in degrees 7 and 2. -/
example : ∃ D, Constructed exSolve 5 exCurve 2 3 D ∧ 3 ≤ 7 ∧ 7 ≤ (2 + 1) * 3 ∧ 2 < 3 := by
  obtain ⟨D, h, -⟩ := exCurve_constructed
  exact ⟨D, h, by norm_num⟩

/-! ### C45 -/

/-- **C45 (non-degenerate object).**  For every object built by the constructor: the basis of cokernels has
`d^n` elements, none repeated; looking up the `j`-th one in the reverse dictionary gives `j` and other
monomials are absent; it is the concatenation of `n+1` blocks, block `i` consisting of monomials of degree
`i d` and having as many elements as the coefficient of `(1 + X + ... + X^(d-1))^(n+1)` in that degree. -/
theorem C45_basis_ND {solve : Solver R} {p n d : Nat} {f : MonMap R} {N : ND R}
    (hC : ConstructedND solve p f n d N) :
    N.ndBasis.length = d ^ n ∧ N.ndBasis.Nodup ∧
    (∀ j, j < N.ndBasis.length → N.ndDict.find? (N.ndBasis.getD j []) = some j) ∧
    (∀ t, t ∉ N.ndBasis → N.ndDict.find? t = none) ∧
    ∃ blocks : Nat → List IVec, N.ndBasis = (List.range (n + 1)).flatMap blocks ∧
      (∀ i, i < n + 1 → ∀ t ∈ blocks i, IsTuple (n + 1) ((i : Int) * d) t) ∧
      ∀ i, i < n + 1 → ((blocks i).length : ℤ)
        = ((∑ j ∈ Finset.range d, (Polynomial.X : Polynomial ℤ) ^ j) ^ (n + 1)).coeff (i * d) := by
  obtain ⟨rfl, rfl, hI⟩ := hC.init
  refine ⟨hI.count, hI.nodup, ?_, ?_, ndBlock solve N.toDR, hI.blocks, fun i hi => (hI.block i hi).tuple, fun i hi => ?_⟩
  · intro j hj
    rw [hI.dict, getD_getElem _ _ _ hj]
    exact find?_buildDict_of_nodup _ hI.nodup j hj
  · intro t ht
    rw [hI.dict]
    exact find?_buildDict_none _ _ ht
  · rw [← (hI.block i hi).count, hilbertND_eq]

/-- **C45 (base).**  The object it extends is one built by the constructor of the base class. -/
theorem C45_base_ND {solve : Solver R} {p n d : Nat} {f : MonMap R} {N : ND R}
    (hC : ConstructedND solve p f n d N) : Constructed solve p f n d N.toDR := by
  refine ⟨hC.solver, hC.wf, hC.hom, hC.size, ?_⟩
  have h := hC.built
  rw [ND.init, Res.bind_eq_ok] at h
  obtain ⟨D, hD, h⟩ := h
  rw [Res.bind_eq_ok] at h
  obtain ⟨_, -, h⟩ := h
  rw [Res.bind_eq_ok] at h
  obtain ⟨_, -, h⟩ := h
  rw [Res.bind_eq_ok] at h
  obtain ⟨_, -, h⟩ := h
  rw [Res.bind_eq_ok] at h
  obtain ⟨_, -, h⟩ := h
  rw [← Except.ok.inj h]
  exact hD

example : ∃ N, ConstructedND exSolve 5 exCubic 1 3 N ∧ N.ndBasis = [[0, 0], [1, 2], [2, 1]] := exCubic_constructedND

/-! ### C30 -/

/-- **C30 (non-degenerate).**  Let `s` be the sum of the `u_i - 1` over the `u_i > 1`.  If `s >= d` (in
particular if `Σ (u_i - 1) >= d`) the search returns `v >= 0` of degree `d` with `u - v` positive wherever
`u` is; otherwise it never ends. -/
theorem C30_direction_ND (d : Nat) (u : IVec) :
    ((d : Int) ≤ (u.map (fun x => max (x - 1) 0)).sum → ∃ v, directionND d u = .ok v ∧ v.length = u.length ∧
      deg v = d ∧ ∀ i, 0 ≤ v.getD i 0 ∧ (0 < u.getD i 0 → 0 < u.getD i 0 - v.getD i 0)) ∧
    ((u.map (· - 1)).sum ≤ (u.map (fun x => max (x - 1) 0)).sum) ∧
    ((u.map (fun x => max (x - 1) 0)).sum < (d : Int) → directionND d u = .error .diverge) := by
  refine ⟨fun h => ?_, slack_ge u, fun h => directionND_diverge h⟩
  obtain ⟨v, e, hb, hs⟩ := directionND_ok h
  exact ⟨v, e, hb.length, hs, fun i => by have := hb.getD i; omega⟩

theorem bumpShift_eq : ∀ (u sh v : IVec), bumpShift u sh v = bumpND (List.zipWith (· - ·) u sh) v
  | [], _, _ => by simp [bumpShift, bumpND]
  | _ :: _, [], _ => by simp [bumpShift, bumpND]
  | _ :: _, _ :: _, [] => by simp [bumpShift, bumpND]
  | x :: u, s :: sh, y :: v => by
    rw [bumpShift, List.zipWith_cons_cons, bumpND, bumpShift_eq u sh v]
    by_cases h : y + 1 + s < x
    · rw [if_pos h, if_pos (by omega)]
    · rw [if_neg h, if_neg (by omega)]

theorem dirLoopShift_eq (u sh : IVec) (k : Nat) : ∀ v, dirLoopShift u sh k v = dirLoopND (List.zipWith (· - ·) u sh) k v := by
  induction k with
  | zero => intro v; rfl
  | succ k ih =>
    intro v
    rw [dirLoopShift, dirLoopND, bumpShift_eq]
    cases bumpND (List.zipWith (· - ·) u sh) v with
    | none => rfl
    | some v' => exact ih v'

/-- **C30 (flint).**  With a shift `sh`, if every `u_i > sh_i` and `Σ (u_i - 1 - sh_i) >= d`, the search of
`frob_ND_flint` returns `v >= 0` of degree `d` with `u - v > sh` everywhere. -/
theorem C30_direction_shift (d : Nat) (u sh : IVec) (hl : sh.length = u.length)
    (hgt : ∀ i, i < u.length → sh.getD i 0 < u.getD i 0)
    (hs : (d : Int) ≤ deg u - u.length - deg sh) :
    ∃ v, directionShift d u sh = .ok v ∧ v.length = u.length ∧ deg v = d ∧
      ∀ i, i < u.length → 0 ≤ v.getD i 0 ∧ sh.getD i 0 < u.getD i 0 - v.getD i 0 := by
  have hlen : (List.zipWith (· - ·) u sh).length = u.length := by rw [List.length_zipWith, hl, min_self]
  have hget : ∀ i, i < u.length → (List.zipWith (· - ·) u sh).getD i 0 = u.getD i 0 - sh.getD i 0 := by
    intro i hi
    rw [getD_getElem _ _ _ (by rw [hlen]; exact hi), List.getElem_zipWith, getD_getElem u _ _ hi,
      getD_getElem sh _ _ (by omega)]
  have hsum : ∀ (u sh : IVec), sh.length = u.length → (List.zipWith (· - ·) u sh).sum = u.sum - sh.sum := by
    intro u
    induction u with
    | nil => intro sh h; rw [List.length_eq_zero_iff.1 h]; simp
    | cons x u ih =>
      intro sh h
      cases sh with
      | nil => simp at h
      | cons s sh =>
        rw [List.zipWith_cons_cons, List.sum_cons, ih sh (by simpa using h), List.sum_cons, List.sum_cons]
        ring
  have hpos : ∀ x ∈ List.zipWith (· - ·) u sh, 0 < x := by
    intro x hx
    obtain ⟨k, hk, rfl⟩ := List.getElem_of_mem hx
    rw [← getD_getElem _ 0 _ hk, hget k (by omega)]
    have := hgt k (by omega)
    omega
  obtain ⟨v, e, hb, hv⟩ := directionND_ok (d := d) (u := List.zipWith (· - ·) u sh) (by
    rw [slack_of_pos hpos, hsum u sh hl, hlen]
    have h1 : deg u = u.sum := rfl
    have h2 : deg sh = sh.sum := rfl
    omega)
  refine ⟨v, ?_, by rw [hb.length, hlen], hv, fun i hi => ?_⟩
  · rw [directionShift, dirLoopShift_eq]
    have : u.map (fun _ => (0 : Int)) = (List.zipWith (· - ·) u sh).map (fun _ => (0 : Int)) := by
      rw [List.map_const', List.map_const', hlen]
    rw [this]
    exact e
  · have h1 := hb.getD i
    have h2 := hgt i hi
    rw [hget i hi] at h1
    omega

example : directionND 4 [3, 1, 5] = .ok [2, 0, 2] ∧ directionND 4 [3, 1, 2] = .error .diverge ∧
    directionShift 4 [3, 4, 5] [1, 0, 2] = .ok [1, 3, 0] ∧ ((4 : Nat) : Int) ≤ deg [3, 4, 5] - (3 : Nat) - deg [1, 0, 2] := by
  refine ⟨by decide, by decide, by decide, by unfold deg; decide⟩

/-! ### C34 -/

theorem ndForm_eq {solve : Solver R} {N : ND R} (hN : NDOk solve N) {u : IVec} (hul : u.length = N.n + 1)
    (hpos : ∀ i, 1 ≤ ev N.n u i) {m : Nat} (hm : u.sum = m * N.d) (G : Nat → R) :
    toForms R N.n N.d (xpow R (fun i => ev N.n u i - 1) * combo N.n N.ndBasis G) =
      ndForm N.n N.d N.ndBasis (ev N.n u) G := by
  have hd := hN.dr.hd
  rw [combo, Finset.mul_sum, map_sum, ndForm]
  refine Finset.sum_congr rfl (fun k hk => ?_)
  have hk := Finset.mem_range.1 hk
  obtain ⟨l, -, hb⟩ := hN.deg (N.ndBasis.getD k []) (by rw [getD_getElem _ _ _ hk]; exact List.getElem_mem hk)
  have hsum : ∑ i, (ev N.n u i + ev N.n (N.ndBasis.getD k []) i) = (((m + l) * N.d : Nat) : Int) := by
    rw [Finset.sum_add_distrib, sum_ev hul, hm, sum_ev_tuple hb]
    push_cast; ring
  have hdiv : (∑ i, (ev N.n u i + ev N.n (N.ndBasis.getD k []) i)).toNat / N.d = m + l := by
    rw [hsum, Int.toNat_natCast, Nat.mul_div_cancel _ (by omega)]
  have hge : N.n + 1 ≤ (m + l) * N.d := by
    have : ((N.n : Int) + 1) ≤ u.sum := by
      rw [← sum_ev hul]
      calc (N.n : Int) + 1 = ∑ i : Fin (N.n + 1), 1 := by simp
        _ ≤ _ := Finset.sum_le_sum (fun i _ => hpos i)
    rw [hm] at this
    have h2 : N.n + 1 ≤ m * N.d := by exact_mod_cast this
    exact le_trans h2 (Nat.mul_le_mul_right _ (by omega))
  rw [mul_smul_comm, map_smul, xpow_mul (fun i => by have := hpos i; omega) (ev_nonneg hb), hdiv]
  have e : (fun i => ev N.n u i - 1) + ev N.n (N.ndBasis.getD k []) =
      fun i => ev N.n u i + ev N.n (N.ndBasis.getD k []) i - 1 := by
    funext i; simp only [Pi.add_apply]; ring
  rw [e, toForms_homogeneous (k := m + l) (e := (m + l) * N.d - (N.n + 1)) (by omega) (by omega)]
  apply xpow_isHomogeneous
  rw [Finset.sum_sub_distrib, hsum, Nat.cast_sub hge]
  simp

/-- **C34.**  For every non-degenerate object built by the constructor, every `v` of degree `d`, every `u`
with positive entries and degree `m d`: `get_reduction_matrix_ND(u, v)` returns a `d^n x d^n` matrix,
`reduce_vector_ND(u, v, G)` returns its product `H` with `G`, and the form with coordinates `G` in `W_(u+v)`
is cohomologous to the one with coordinates `H` in `W_u`. -/
theorem C34_step_keeps_class [DecidableEq R] {solve : Solver R} {p n d : Nat} {f : MonMap R} {N : ND R}
    (hC : ConstructedND solve p f n d N) (hn : 1 ≤ n) (u v : IVec) (hu : u.length = n + 1)
    (hpos : ∀ x ∈ u, 0 < x) (m : Nat) (hm : u.sum = m * d) (hv : IsTuple (n + 1) d v) :
    ∃ M, getReductionMatrixND solve N u v = .ok M ∧ M.rows = d ^ n ∧ M.cols = d ^ n ∧
      ∀ G : CVec R, G.len = d ^ n → ∃ H, reduceVectorND solve N u v G = .ok H ∧ M.mulVec G = .ok H ∧
        H.len = d ^ n ∧
        Cohomologous (toPoly (n + 1) f) d (ndForm n d N.ndBasis (ev n u + ev n v) G.e)
          (ndForm n d N.ndBasis (ev n u) H.e) := by
  obtain ⟨rfl, rfl, hI⟩ := hC.init
  have hN := hI.nd hn
  have hd := hN.dr.hd
  obtain ⟨M, eM, hr, hc, hstep⟩ := stepND_ok hC.solver hN hv hm
  rw [hI.count] at hr hc
  refine ⟨M, eM, hr, hc, fun G hG => ?_⟩
  rw [← hI.count] at hG
  obtain ⟨H, e1, e2, l, -⟩ := hstep G hG
  obtain ⟨H', e1', -, hrel⟩ := stepND_Ex hC.solver hN hu hpos hv hm hG
  rw [e1] at e1'
  obtain rfl := Except.ok.inj e1'
  refine ⟨H, e1, e2, by rw [l, hI.count], ?_⟩
  have hf : DRpoly N.toDR = toPoly (N.n + 1) f := by rw [DRpoly, hI.base.f_eq]
  rw [← hf, Cohomologous]
  obtain ⟨w, hw, ew⟩ := exists_ev (ev N.n u + ev N.n v)
  have h1 := ev_pos hu hpos
  have hwp : ∀ i, 1 ≤ ev N.n w i := fun i => by
    rw [ew, Pi.add_apply]; have := h1 i; have := ev_nonneg hv i; omega
  have hws : w.sum = ((m + 1 : Nat) : Int) * N.d := by
    rw [← sum_ev hw, ew, Finset.sum_congr rfl (fun i _ => Pi.add_apply _ _ i), Finset.sum_add_distrib, sum_ev hu,
      sum_ev_tuple hv, hm]
    push_cast; ring
  have e3 : (fun i => ev N.n u i + ev N.n v i - 1) = fun i => ev N.n w i - 1 := by rw [ew]; rfl
  rw [e3] at hrel
  have := toForms_Ex (by omega) _ (DRpoly_isHomogeneous hN.dr) hrel
  rw [map_sub, ndForm_eq hN hw hwp hws, ndForm_eq hN hu h1 hm, ew] at this
  exact this

/-- **C34 (every u).**  The relation holds for every `u`, positive or not, in terms of logarithmic forms: the
matrix depends polynomially on `u` and the class of `x^(u+v) G` is that of `x^u H` modulo the relations
`x^a x_i ∂_i f = a_i x^a`. -/
theorem C34_step_every_u [DecidableEq R] {solve : Solver R} {p n d : Nat} {f : MonMap R} {N : ND R}
    (hC : ConstructedND solve p f n d N) (hn : 1 ≤ n) (u v : IVec) (m : Int) (hm : u.sum = m * d)
    (hv : IsTuple (n + 1) d v) :
    ∃ M, getReductionMatrixND solve N u v = .ok M ∧ M.rows = d ^ n ∧ M.cols = d ^ n ∧
      ∀ G : CVec R, G.len = d ^ n → ∃ H, reduceVectorND solve N u v G = .ok H ∧ M.mulVec G = .ok H ∧
        H.len = d ^ n ∧
        logForm n N.ndBasis (ev n u + ev n v) G.e - logForm n N.ndBasis (ev n u) H.e ∈
          logExact (toPoly (n + 1) f) := by
  obtain ⟨rfl, rfl, hI⟩ := hC.init
  have hN := hI.nd hn
  obtain ⟨M, eM, hr, hc, hstep⟩ := stepND_ok hC.solver hN hv hm
  rw [hI.count] at hr hc
  refine ⟨M, eM, hr, hc, fun G hG => ?_⟩
  rw [← hI.count] at hG
  obtain ⟨H, e1, e2, l, hrel⟩ := hstep G hG
  refine ⟨H, e1, e2, by rw [l, hI.count], ?_⟩
  have hf : DRpoly N.toDR = toPoly (N.n + 1) f := by rw [DRpoly, hI.base.f_eq]
  rw [← hf]
  have h := hrel _ _ (logMap_rel (f := DRpoly N.toDR) N.d (ev N.n u))
  rw [LinearMap.comp_apply, LinearMap.comp_apply, Submodule.mkQ_apply, Submodule.mkQ_apply,
    Submodule.Quotient.eq] at h
  have key : ∀ (w : Fin (N.n + 1) → ℤ), (∀ i, 0 ≤ w i) → ∀ G : Nat → R,
      logMap R (ev N.n u) (xpow R w * combo N.n N.ndBasis G) = logForm N.n N.ndBasis (ev N.n u + w) G := by
    intro w hw G
    rw [combo, Finset.mul_sum, map_sum, logForm]
    refine Finset.sum_congr rfl (fun k hk => ?_)
    have hk := Finset.mem_range.1 hk
    obtain ⟨l, -, hb⟩ := hN.deg (N.ndBasis.getD k []) (by rw [getD_getElem _ _ _ hk]; exact List.getElem_mem hk)
    rw [mul_smul_comm, map_smul, xpow_mul hw (ev_nonneg hb), logMap_xpow _ (w := w + ev N.n (N.ndBasis.getD k [])) (fun i => add_nonneg (hw i) (ev_nonneg hb i)),
      Finsupp.smul_single, smul_eq_mul, mul_one]
    congr 1
    funext i
    simp only [Pi.add_apply]
    ring
  have h0 : xpow R (0 : Fin (N.n + 1) → ℤ) = 1 := by
    rw [xpow_of_nonneg (a := (0 : Fin (N.n + 1) → ℤ)) (fun i => le_refl _)]
    have : (Finsupp.equivFunOnFinite.symm fun i : Fin (N.n + 1) => ((0 : Fin (N.n + 1) → ℤ) i).toNat) = 0 := by
      ext i; simp
    rw [this]; rfl
  have h2 := key 0 (fun i => le_refl _) H.e
  rw [h0, one_mul, add_zero] at h2
  rw [key _ (ev_nonneg hv), h2] at h
  exact h

set_option maxRecDepth 100000 in
/-- The cubic, `u = (2,4)`, `v = (3,0)`, and what the call returns on the first unit vector; `u = (-4,1)` for
the second theorem. -/
example : (∃ N, ConstructedND exSolve 5 exCubic 1 3 N) ∧ ([2, 4] : IVec).length = 1 + 1 ∧ (∀ x ∈ ([2, 4] : IVec), 0 < x) ∧
    ([2, 4] : IVec).sum = (2 : Nat) * (3 : Nat) ∧ ([-4, 1] : IVec).sum = (-1) * (3 : Nat) ∧ IsTuple (1 + 1) (3 : Nat) [3, 0] ∧
    (do let N ← ND.init exSolve 5 exCubic
        let H ← reduceVectorND exSolve N [2, 4] [3, 0] (CVec.unit 3 0)
        .ok ((List.range H.len).map H.e) : Res (List (ZMod 25))) = .ok [17, 0, 0] := by
  obtain ⟨N, h, -⟩ := exCubic_constructedND
  exact ⟨⟨N, h⟩, rfl, by decide, by decide, by decide, by unfold IsTuple NonNeg deg; decide, by decide +kernel⟩

/-! ### C48 -/

/-- **C48.**  For every non-degenerate object built by the constructor and every `u` with positive entries
and degree `m d`, `monomial_to_basis_ND(u)` returns, without assertion failure or non-termination,
coordinates `H` with `(m-1)! x^u Ω / (x_0...x_n f^m)` cohomologous to `Σ H_j basis_j`. -/
theorem C48_monomial_to_basis_ND [Nontrivial R] [DecidableEq R] {solve : Solver R} {p n d : Nat} {f : MonMap R}
    {N : ND R} (hC : ConstructedND solve p f n d N) (hn : 1 ≤ n) (u : IVec) (hu : u.length = n + 1)
    (hpos : ∀ x ∈ u, 0 < x) (m : Nat) (hm : u.sum = m * d) :
    ∃ H, monomialToBasisND solve N u = .ok H ∧ H.len = N.basis.length ∧
      Cohomologous (toPoly (n + 1) f) d
        (form m (((m - 1).factorial : R) • xpow R (fun i => ev n u i - 1))) (basisForm n d N.basis H.e) := by
  obtain ⟨rfl, rfl, hI⟩ := hC.init
  have hN := hI.nd hn
  have hd := hN.dr.hd
  obtain ⟨H, c, eH, hHl, hfac, hrel⟩ :=
    monomialToBasisND_ok hC.solver hN hI.base.top hI.base.basis hI.blocks hI.block hu hpos m hm
  refine ⟨H, eH, hHl, ?_⟩
  have hf : DRpoly N.toDR = toPoly (N.n + 1) f := by rw [DRpoly, hI.base.f_eq]
  rw [← hf]
  have hge : (N.n : Int) + 1 ≤ u.sum := by
    rw [← sum_ev hu]
    calc (N.n : Int) + 1 = ∑ i : Fin (N.n + 1), 1 := by simp
      _ ≤ _ := Finset.sum_le_sum (fun i _ => ev_pos hu hpos i)
  have hle : N.n + 1 ≤ m * N.d := by rw [hm] at hge; exact_mod_cast hge
  refine basis_toForms (e := m * N.d - (N.n + 1)) hN.dr hI.base.basis (by omega) ?_ hfac hrel
  apply xpow_isHomogeneous
  rw [Finset.sum_sub_distrib, sum_ev hu, hm, Nat.cast_sub hle]
  simp

set_option maxRecDepth 100000 in
/-- The cubic, pole order 3: the call returns `(0, 14)`, as `monomial_to_basis_J` does. -/
example : (∃ N, ConstructedND exSolve 5 exCubic 1 3 N) ∧ ([5, 4] : IVec).length = 1 + 1 ∧ (∀ x ∈ ([5, 4] : IVec), 0 < x) ∧
    ([5, 4] : IVec).sum = (3 : Nat) * (3 : Nat) ∧
    (do let N ← ND.init exSolve 5 exCubic
        let H ← monomialToBasisND exSolve N [5, 4]
        .ok ((List.range H.len).map H.e) : Res (List (ZMod 25))) = .ok [0, 14] := by
  obtain ⟨N, h, -⟩ := exCubic_constructedND
  exact ⟨⟨N, h⟩, rfl, by decide, by decide, by decide +kernel⟩

section

variable {p N : ℕ} [Fact p.Prime]

/-- **C48 (agreement).**  Over `Z/p^N` with `solve_system_padic`, `monomial_to_basis_ND(u)` and
`monomial_to_basis_J(u)` return the same coordinates. -/
theorem C48_agrees_with_J (hN : 1 ≤ N) (la : LinAlg (ZMod p)) (hla : LinAlgOK la) (flint : Bool)
    (precision : ℕ) (hprec : N ≤ precision) {q n d : ℕ} {f : MonMap (ZMod (p ^ N))} {D : ND (ZMod (p ^ N))}
    (hC : ConstructedND (padicSolver p N la flint precision) q f n d D) (hn : 1 ≤ n) (u : IVec)
    (hu : u.length = n + 1) (hpos : ∀ x ∈ u, 0 < x) (m : Nat) (hm : u.sum = m * d) :
    ∃ H H' : CVec (ZMod (p ^ N)), monomialToBasisND (padicSolver p N la flint precision) D u = .ok H ∧
      monomialToBasisJ (padicSolver p N la flint precision) D.toDR u = .ok H' ∧ H.len = H'.len ∧
      ∀ r, r < H.len → H.e r = H'.e r := by
  obtain ⟨rfl, rfl, hI⟩ := hC.init
  have := nontrivial_pow (p := p) hN
  have hI0 := hI.base
  obtain ⟨H, c, e1, l1, f1, g1⟩ :=
    monomialToBasisND_ok hC.solver (hI.nd hn) hI0.top hI0.basis hI.blocks hI.block hu hpos m hm
  obtain ⟨H', c', e2, l2, f2, g2⟩ := monomialToBasisJ_ok hC.solver hI0.ok hI0.top hI0.basis hn hu hpos m hm
  refine ⟨H, H', e1, e2, by omega, fun r hr => ?_⟩
  have h1 := Submodule.sub_mem _ g2 g1
  rw [sub_sub_sub_cancel_left, ← Finset.sum_sub_distrib] at h1
  have h2 := basis_indep hN hla hprec hI0 (fun r => c r - c' r) (by
    simp only [sub_smul]; exact h1) r (by omega)
  rw [f1 r (by omega), f2 r (by omega), sub_eq_zero.1 h2]

example : ∃ la : LinAlg (ZMod 5), LinAlgOK la ∧ (∃ D, ConstructedND (padicSolver 5 2 la true 2) 5 exCubic 1 3 D) ∧
    (∀ x ∈ ([5, 4] : IVec), 0 < x) ∧ ([5, 4] : IVec).sum = (3 : Nat) * (3 : Nat) := by
  obtain ⟨la, hla⟩ := exists_linAlg (ZMod 5)
  obtain ⟨D, h, -⟩ := exCubic_padicND la hla true
  exact ⟨la, hla, ⟨D, h⟩, by decide, by decide⟩

/-! ### C25 -/

/-- **C25 (non-degenerate paths).**  For every non-degenerate object built by the constructor, every positive
`u` and any two paths of directions from `u` down to degree `d`: both runs (reductions, then the matrix to the
cohomology basis) return a matrix, and the two matrices are equal. -/
theorem C25_path_independence_ND (hN : 1 ≤ N) (la : LinAlg (ZMod p)) (hla : LinAlgOK la) (flint : Bool)
    (precision : ℕ) (hprec : N ≤ precision) {q n d : ℕ} {f : MonMap (ZMod (p ^ N))} {D : ND (ZMod (p ^ N))}
    (hC : ConstructedND (padicSolver p N la flint precision) q f n d D) (hn : 1 ≤ n) (u : IVec)
    (hu : u.length = n + 1) (hpos : ∀ x ∈ u, 0 < x) (vs vs' : List IVec) (hv : IsPathND n d (ev n u) vs)
    (hv' : IsPathND n d (ev n u) vs') :
    ∃ P P' : CMat (ZMod (p ^ N)), pathMatrixND (padicSolver p N la flint precision) D u vs = .ok P ∧
      pathMatrixND (padicSolver p N la flint precision) D u vs' = .ok P' ∧
      P.rows = D.basis.length ∧ P'.rows = D.basis.length ∧ P.cols = d ^ n ∧ P'.cols = d ^ n ∧
      ∀ r k, r < P.rows → k < P.cols → P.e r k = P'.e r k := by
  obtain ⟨rfl, rfl, hI⟩ := hC.init
  have := nontrivial_pow (p := p) hN
  have hI0 := hI.base
  obtain ⟨P, c, e1, r1, k1, f1, g1⟩ :=
    pathMatrixND_ok hC.solver (hI.nd hn) hI0.top hI0.basis hI.blocks hI.block u vs hu hpos hv
  obtain ⟨P', c', e2, r2, k2, f2, g2⟩ :=
    pathMatrixND_ok hC.solver (hI.nd hn) hI0.top hI0.basis hI.blocks hI.block u vs' hu hpos hv'
  refine ⟨P, P', e1, e2, r1, r2, by rw [k1, hI.count], by rw [k2, hI.count], ?_⟩
  intro r k hr hk
  have h1 := Submodule.sub_mem _ (g2 k (by omega)) (g1 k (by omega))
  rw [sub_sub_sub_cancel_left, ← Finset.sum_sub_distrib] at h1
  have h2 := basis_indep hN hla hprec hI0 (fun r => c r k - c' r k) (by
    simp only [sub_smul]; exact h1) r (by omega)
  rw [f1 r k (by omega) (by omega), f2 r k (by omega) (by omega), sub_eq_zero.1 h2]

/-- **C25 (test_paths_ND).**  Whatever the random choices, as long as they are paths, `test_paths_ND`
returns `true`. -/
theorem C25_test_paths_ND (hN : 1 ≤ N) (la : LinAlg (ZMod p)) (hla : LinAlgOK la) (flint : Bool)
    (precision : ℕ) (hprec : N ≤ precision) {q n d : ℕ} {f : MonMap (ZMod (p ^ N))} {D : ND (ZMod (p ^ N))}
    (hC : ConstructedND (padicSolver p N la flint precision) q f n d D) (hn : 1 ≤ n)
    (att : List (IVec × List (List IVec)))
    (hatt : ∀ a ∈ att, a.1.length = n + 1 ∧ (∀ x ∈ a.1, 0 < x) ∧ ∀ vs ∈ a.2, IsPathND n d (ev n a.1) vs) :
    testPathsND (padicSolver p N la flint precision) D att = .ok true := by
  have hone : ∀ (u : IVec), u.length = n + 1 → (∀ x ∈ u, 0 < x) → ∀ (paths : List (List IVec)),
      (∀ vs ∈ paths, IsPathND n d (ev n u) vs) → ∀ last : Option (CMat (ZMod (p ^ N))),
      (∀ M0, last = some M0 → ∃ vs0, IsPathND n d (ev n u) vs0 ∧
        pathMatrixND (padicSolver p N la flint precision) D u vs0 = .ok M0) →
      testPathsLoopND (padicSolver p N la flint precision) D u paths last = .ok true := by
    intro u hu hu0 paths
    induction paths with
    | nil => intro _ last _; rfl
    | cons vs paths ih =>
      intro hp last hlast
      have hvs := hp vs (List.mem_cons_self ..)
      have hrest := fun vs h => hp vs (List.mem_cons_of_mem _ h)
      obtain ⟨P, -, e1, -, -⟩ := C25_path_independence_ND hN la hla flint precision hprec hC hn u hu hu0 vs vs hvs hvs
      have hnext := ih hrest (some P) (by
        intro M0 h; cases h; exact ⟨vs, hvs, e1⟩)
      rw [testPathsLoopND, e1, Res.bind_ok]
      cases last with
      | none => exact hnext
      | some M0 =>
        obtain ⟨vs0, hv0, e0⟩ := hlast M0 rfl
        obtain ⟨Q, Q', q1, q2, r1, r2, c1, c2, hE⟩ :=
          C25_path_independence_ND hN la hla flint precision hprec hC hn u hu hu0 vs0 vs hv0 hvs
        rw [e0] at q1
        rw [e1] at q2
        obtain rfl := Except.ok.inj q1
        obtain rfl := Except.ok.inj q2
        have : CMat.eqv M0 P = true := by
          simp only [CMat.eqv, Bool.and_eq_true, decide_eq_true_eq, List.all_eq_true, List.mem_range]
          exact ⟨⟨by omega, by omega⟩, fun r hr k hk => hE r k hr hk⟩
        simp only
        rw [if_pos this]
        exact hnext
  induction att with
  | nil => rfl
  | cons a att ih =>
    obtain ⟨u, paths⟩ := a
    obtain ⟨h1, h2, h3⟩ := hatt _ (List.mem_cons_self ..)
    rw [testPathsND, hone u h1 h2 paths h3 none (by intro M0 h; cases h), Res.bind_ok, if_pos rfl]
    exact ih (fun a h => hatt a (List.mem_cons_of_mem _ h))

/-- Two paths from `(5,4)`, ending at different points. -/
example : ∃ la : LinAlg (ZMod 5), LinAlgOK la ∧ (∃ D, ConstructedND (padicSolver 5 2 la true 2) 5 exCubic 1 3 D) ∧
    IsPathND 1 3 (ev 1 [5, 4]) [[3, 0], [1, 2]] ∧ IsPathND 1 3 (ev 1 [5, 4]) [[1, 2], [2, 1]] := by
  obtain ⟨la, hla⟩ := exists_linAlg (ZMod 5)
  obtain ⟨D, h, -⟩ := exCubic_padicND la hla true
  refine ⟨la, hla, ⟨D, h⟩, ?_⟩
  constructor
  all_goals
    unfold IsPathND IsPathND IsPathND IsTuple NonNeg deg
    decide

/-- **C25 (implementation, non-degenerate).**  The FLINT and NTL variants, whatever the linear algebra library
does within its contract, build the same non-degenerate object; and `monomial_to_basis_ND` returns the same
coordinates with both. -/
theorem C25_solver_independent_ND (hN : 1 ≤ N) (la la' : LinAlg (ZMod p)) (hla : LinAlgOK la)
    (hla' : LinAlgOK la') (flint flint' : Bool) (precision : ℕ) (hprec : N ≤ precision) {q : ℕ}
    {f : MonMap (ZMod (p ^ N))} :
    ND.init (padicSolver p N la flint precision) q f = ND.init (padicSolver p N la' flint' precision) q f ∧
    ∀ {n d : ℕ} {D : ND (ZMod (p ^ N))}, ConstructedND (padicSolver p N la flint precision) q f n d D → 1 ≤ n →
      ∀ (u : IVec), u.length = n + 1 → (∀ x ∈ u, 0 < x) → ∀ m : ℕ, u.sum = m * d →
      ∃ H H' : CVec (ZMod (p ^ N)), monomialToBasisND (padicSolver p N la flint precision) D u = .ok H ∧
        monomialToBasisND (padicSolver p N la' flint' precision) D u = .ok H' ∧ H.len = H'.len ∧
        ∀ r, r < H.len → H.e r = H'.e r := by
  have hinit := initND_congr (s := padicSolver p N la flint precision)
    (s' := padicSolver p N la' flint' precision) (fun T => by
      obtain ⟨B, U, e, -⟩ := C20_padic la hla flint T precision hprec
      obtain ⟨B', U', e', -⟩ := C20_padic la' hla' flint' T precision hprec
      have := (C20_same_basis la la' hla hla' flint flint' T precision hprec B B' U U' e e').1
      simp only [padicSolver, e, e', Except.map, this]) q f
  refine ⟨hinit, fun {n d D} hC hn u hu hpos m hm => ?_⟩
  have hC' : ConstructedND (padicSolver p N la' flint' precision) q f n d D :=
    ⟨padicSolver_ok hla' flint' hprec, hC.wf, hC.hom, hC.size, by rw [← hinit]; exact hC.built⟩
  have := nontrivial_pow (p := p) hN
  obtain ⟨rfl, rfl, hI⟩ := hC.init
  obtain ⟨-, -, hI'⟩ := hC'.init
  obtain ⟨H, c, e1, l1, f1, g1⟩ := monomialToBasisND_ok hC.solver (hI.nd hn) hI.base.top hI.base.basis hI.blocks hI.block hu hpos m hm
  obtain ⟨H', c', e2, l2, f2, g2⟩ :=
    monomialToBasisND_ok hC'.solver (hI'.nd hn) hI'.base.top hI'.base.basis hI'.blocks hI'.block hu hpos m hm
  refine ⟨H, H', e1, e2, by omega, fun r hr => ?_⟩
  have h1 := Submodule.sub_mem _ g2 g1
  rw [sub_sub_sub_cancel_left, ← Finset.sum_sub_distrib] at h1
  have h2 := basis_indep hN hla hprec hI.base (fun r => c r - c' r) (by
    simp only [sub_smul]; exact h1) r (by omega)
  rw [f1 r (by omega), f2 r (by omega), sub_eq_zero.1 h2]

example : ∃ la : LinAlg (ZMod 5), LinAlgOK la ∧ (∃ D, ConstructedND (padicSolver 5 2 la true 2) 5 exCubic 1 3 D) ∧
    (1 : Nat) ≤ 2 := by
  obtain ⟨la, hla⟩ := exists_linAlg (ZMod 5)
  obtain ⟨D, h, -⟩ := exCubic_padicND la hla true
  exact ⟨la, hla, ⟨D, h⟩, by norm_num⟩

end

end Verif
