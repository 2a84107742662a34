import Verif.Lemmas.NDCol

/-!
One reduction step of the non-degenerate object: `get_reduction_matrix_ND`, `reduce_vector_ND`.
-/

namespace Verif

open Spec MvPolynomial

variable {R : Type} [CommRing R]

/-- The entry `(r, c)` of the reduction matrix at `u`. -/
def redSum (n : Nat) (u : IVec) (res : MonMap (CMat R)) (r c : Nat) : R :=
  msum (fun k (M : CMat R) => ((ndMon n u k : Int) : R) * M.e r c) res

theorem cval_eq (n : Nat) (u : IVec) (basis : List IVec) (c : Nat) (res : MonMap (CMat R)) :
    cval n u basis c res = combo n basis (fun r => redSum n u res r c) := by
  induction res with
  | nil => simp [cval, msum, redSum, combo]
  | cons e res ih =>
    rw [cval, msum_cons, show msum (fun k (M : CMat R) => ((ndMon n u k : Int) : R) •
      combo n basis (fun r => M.e r c)) res = cval n u basis c res from rfl, ih]
    simp only [redSum, msum_cons]
    rw [combo_add]
    congr 1
    simp only [combo, Finset.smul_sum, smul_smul]

theorem mk'_e_of_lt {dim : Nat} (h : Nat → R) {r : Nat} (hr : r < dim) : (CVec.mk' dim h).e r = h r := by
  simp only [CVec.mk', if_pos hr]

theorem CMat.mk'_e {a b : Nat} (h : Nat → Nat → R) {r c : Nat} (hr : r < a) (hc : c < b) :
    (CMat.mk' a b h).e r c = h r c := by
  simp only [CMat.mk', if_pos (And.intro hr hc)]

theorem foldlM_eq {α σ : Type} {f : σ → α → Res σ} (P : σ → Prop) (g : σ → α → σ) :
    ∀ {l : List α} {s : σ}, (∀ s, P s → ∀ a ∈ l, f s a = .ok (g s a) ∧ P (g s a)) → P s → l.foldlM f s = .ok (l.foldl g s) := by
  intro l
  induction l with
  | nil => intro s _ _; rfl
  | cons a l ih =>
    intro s h hs
    rw [List.foldlM_cons, (h s hs a (by simp)).1]
    exact ih (fun s hs a ha => h s hs a (List.mem_cons_of_mem _ ha)) (h s hs a (by simp)).2

theorem checkND_ok {N : ND R} (hd : N.n < N.d) {u v : IVec} (hv : v.sum = N.d) {m : Int} (hu : u.sum = m * N.d) :
    checkND N u v = .ok () := by
  rw [checkND, sumVec_eq_sum, hv, decide_eq_true rfl, check_true, Res.bind_ok, if_neg (by omega), sumVec_eq_sum, hu,
    Int.mul_emod_left, decide_eq_true rfl, check_true]

section

variable [DecidableEq R]

theorem getReductionMatrixND_eq {solve : Solver R} {N : ND R} (hd : N.n < N.d) {u v : IVec} (hv : v.sum = N.d)
    {m : Int} (hu : u.sum = m * N.d) {res : MonMap (CMat R)} (e : redMatND solve N v = .ok res)
    (hres : RES N.n N.ndBasis.length res) :
    getReductionMatrixND solve N u v =
      .ok (CMat.mk' N.ndBasis.length N.ndBasis.length (redSum N.n u res)) := by
  rw [getReductionMatrixND, checkND_ok hd hv hu, Res.bind_ok, e, Res.bind_ok]
  have hall : ∀ t ∈ res, t.2.rows = N.ndBasis.length ∧ t.2.cols = N.ndBasis.length := fun t ht =>
    ⟨(hres.entry t ht).2.1, (hres.entry t ht).2.2.1⟩
  have key : ∀ (l : MonMap (CMat R)) (h : Nat → Nat → R),
      (∀ t ∈ l, t.2.rows = N.ndBasis.length ∧ t.2.cols = N.ndBasis.length) →
      l.foldlM (fun (M : CMat R) e =>
        if e.2.rows = M.rows ∧ e.2.cols = M.cols then
          .ok (CMat.mk' M.rows M.cols (fun i j => M.e i j + ((ndMon N.n u e.1 : Int) : R) * e.2.e i j))
        else (.error .abort : Res (CMat R))) (CMat.mk' N.ndBasis.length N.ndBasis.length h) =
      Except.ok (CMat.mk' N.ndBasis.length N.ndBasis.length (fun r c => h r c + redSum N.n u l r c)) := by
    intro l
    induction l with
    | nil => intro h _; simp [redSum, msum, pure, Except.pure]
    | cons t l ih =>
      intro h hl
      rw [List.foldlM_cons, if_pos (show t.2.rows = (CMat.mk' N.ndBasis.length N.ndBasis.length h).rows ∧
        t.2.cols = (CMat.mk' N.ndBasis.length N.ndBasis.length h).cols from hl t (by simp)), Res.bind_ok]
      have : CMat.mk' (CMat.mk' N.ndBasis.length N.ndBasis.length h).rows
          (CMat.mk' N.ndBasis.length N.ndBasis.length h).cols
          (fun i j => (CMat.mk' N.ndBasis.length N.ndBasis.length h).e i j + ((ndMon N.n u t.1 : Int) : R) * t.2.e i j)
          = CMat.mk' N.ndBasis.length N.ndBasis.length (fun i j => h i j + ((ndMon N.n u t.1 : Int) : R) * t.2.e i j) := by
        simp only [CMat.mk']
        congr 1
        funext i j
        by_cases hij : i < N.ndBasis.length ∧ j < N.ndBasis.length <;> simp [hij]
      rw [this, ih _ (fun t ht => hl t (List.mem_cons_of_mem _ ht))]
      congr 2
      funext r c
      simp only [redSum, msum_cons]
      ring
  rw [key res _ hall]
  congr 2
  funext r c
  simp

theorem reduceVectorND_eq {solve : Solver R} {N : ND R} (hd : N.n < N.d) {u v : IVec} (hv : v.sum = N.d)
    {m : Int} (hu : u.sum = m * N.d) {res : MonMap (CMat R)} (e : redMatND solve N v = .ok res)
    (hres : RES N.n N.ndBasis.length res) {G : CVec R} (hG : G.len = N.ndBasis.length) :
    reduceVectorND solve N u v G = .ok (CVec.mk' N.ndBasis.length
      (fun r => ∑ k ∈ Finset.range N.ndBasis.length, redSum N.n u res r k * G.e k)) := by
  rw [reduceVectorND, checkND_ok hd hv hu, Res.bind_ok, e, Res.bind_ok]
  have hall : ∀ t ∈ res, t.2.rows = N.ndBasis.length ∧ t.2.cols = N.ndBasis.length := fun t ht =>
    ⟨(hres.entry t ht).2.1, (hres.entry t ht).2.2.1⟩
  have key : ∀ (l : MonMap (CMat R)) (h : Nat → R),
      (∀ t ∈ l, t.2.rows = N.ndBasis.length ∧ t.2.cols = N.ndBasis.length) →
      l.foldlM (fun (H : CVec R) e => do
        let T ← e.2.mulVec (CVec.mk' G.len (fun i => ((ndMon N.n u e.1 : Int) : R) * G.e i))
        if T.len = H.len then .ok (CVec.mk' H.len (fun i => H.e i + T.e i)) else .error .abort)
        (CVec.mk' N.ndBasis.length h) =
      Except.ok (CVec.mk' N.ndBasis.length
        (fun r => h r + ∑ k ∈ Finset.range N.ndBasis.length, redSum N.n u l r k * G.e k)) := by
    intro l
    induction l with
    | nil => intro h _; simp [redSum, msum, pure, Except.pure]
    | cons t l ih =>
      intro h hl
      obtain ⟨h1, h2⟩ := hl t (by simp)
      obtain ⟨T, eT, lT, vT⟩ := mulVec_ok t.2 (CVec.mk' G.len (fun i => ((ndMon N.n u t.1 : Int) : R) * G.e i))
        (by rw [h2]; exact hG.symm)
      rw [List.foldlM_cons, eT, Res.bind_ok, if_pos (by rw [lT, h1]; rfl), Res.bind_ok]
      have : CVec.mk' (CVec.mk' N.ndBasis.length h).len
          (fun i => (CVec.mk' N.ndBasis.length h).e i + T.e i)
          = CVec.mk' N.ndBasis.length (fun r => h r + ∑ k ∈ Finset.range N.ndBasis.length,
            (((ndMon N.n u t.1 : Int) : R) * t.2.e r k) * G.e k) := by
        simp only [CVec.mk']
        congr 1
        funext i
        by_cases hi : i < N.ndBasis.length
        · simp only [if_pos hi]
          rw [vT i (by rw [h1]; exact hi), h2]
          congr 1
          refine Finset.sum_congr rfl (fun k hk => ?_)
          rw [mk'_e_of_lt _ (by rw [hG]; exact Finset.mem_range.1 hk)]
          ring
        · simp only [if_neg hi]
      rw [this, ih _ (fun t ht => hl t (List.mem_cons_of_mem _ ht))]
      congr 2
      funext r
      rw [add_assoc, ← Finset.sum_add_distrib]
      congr 1
      refine Finset.sum_congr rfl (fun k _ => ?_)
      simp only [redSum, msum_cons]
      ring
  rw [key res _ hall]
  congr 2
  funext r
  simp

/-- One step: the matrix exists, the vector function is the product with it, and coordinates at `u + v`
are sent to equivalent coordinates at `u`. -/
theorem stepND_ok {solve : Solver R} (hsolve : SolverOK solve) {N : ND R} (hN : NDOk solve N)
    {u v : IVec} (hv : IsTuple (N.n + 1) N.d v) {m : Int} (hu : u.sum = m * N.d) :
    ∃ M, getReductionMatrixND solve N u v = .ok M ∧ M.rows = N.ndBasis.length ∧ M.cols = N.ndBasis.length ∧
      ∀ G : CVec R, G.len = N.ndBasis.length → ∃ H, reduceVectorND solve N u v G = .ok H ∧ M.mulVec G = .ok H ∧
        H.len = N.ndBasis.length ∧
        ∀ (W : Type) [AddCommGroup W] [Module R W] (Ψ : MvPolynomial (Fin (N.n + 1)) R →ₗ[R] W),
          TorRel N.d (DRpoly N.toDR) (ev N.n u) Ψ →
          Ψ (xpow R (ev N.n v) * combo N.n N.ndBasis G.e) = Ψ (combo N.n N.ndBasis H.e) := by
  have hd := hN.dr.hd
  obtain ⟨res, e, hres, hrel⟩ := redMatND_ok hsolve hN hv
  refine ⟨_, getReductionMatrixND_eq hd hv.2.2 hu e hres, rfl, rfl, fun G hG => ?_⟩
  refine ⟨_, reduceVectorND_eq hd hv.2.2 hu e hres hG, ?_, rfl, ?_⟩
  · rw [CMat.mulVec, if_pos (by exact hG.symm)]
    simp only [CVec.mk', CMat.mk']
    congr 2
    funext r
    by_cases hr : r < N.ndBasis.length
    · simp only [if_pos hr, sumLoop_eq_sum]
      refine Finset.sum_congr rfl (fun k hk => ?_)
      rw [if_pos ⟨hr, Finset.mem_range.1 hk⟩]
    · exact (if_neg hr).trans (if_neg hr).symm
  · intro W _ _ Ψ hΨ
    have h1 : xpow R (ev N.n v) * combo N.n N.ndBasis G.e = ∑ k ∈ Finset.range N.ndBasis.length,
        G.e k • xpow R (ev N.n (N.ndBasis.getD k []) + ev N.n v) := by
      rw [combo, Finset.mul_sum]
      refine Finset.sum_congr rfl (fun k hk => ?_)
      have hk := Finset.mem_range.1 hk
      obtain ⟨l, -, hb⟩ := hN.deg (N.ndBasis.getD k []) (by rw [getD_getElem _ _ _ hk]; exact List.getElem_mem hk)
      rw [mul_smul_comm, xpow_mul (ev_nonneg hv) (ev_nonneg hb), add_comm (ev N.n v)]
    rw [h1, map_sum, combo_congr (fun r hr => mk'_e_of_lt _ hr), combo, map_sum]
    simp only [map_smul, map_sum, Finset.sum_smul]
    conv_rhs => rw [Finset.sum_comm]
    refine Finset.sum_congr rfl (fun k hk => ?_)
    rw [hrel u W Ψ hΨ k (Finset.mem_range.1 hk), cval_eq, combo, map_sum, Finset.smul_sum]
    refine Finset.sum_congr rfl (fun r _ => ?_)
    rw [map_smul, smul_smul, mul_comm]

end

/-! ### The two meanings -/

/-- Multiplication by `x^u / (x_0 ... x_n)` modulo the Griffiths relations. -/
noncomputable def torForm {n : Nat} (f : MvPolynomial (Fin (n + 1)) R) (d : Nat) (u : Fin (n + 1) → ℤ) :
    MvPolynomial (Fin (n + 1)) R →ₗ[R] MvPolynomial (Fin (n + 1)) R ⧸ Ex f d :=
  (Ex f d).mkQ ∘ₗ LinearMap.mulLeft R (xpow R (fun i => u i - 1))

theorem torForm_rel {n : Nat} {f : MvPolynomial (Fin (n + 1)) R} {d : Nat} {u : Fin (n + 1) → ℤ}
    (hu : ∀ i, 1 ≤ u i) {m : Nat} (hs : ∑ i, u i = m * d) : TorRel d f u (torForm f d u) := by
  intro w i k hw hk
  have hu1 : ∀ j, 0 ≤ (fun j => u j - 1) j := fun j => by have := hu j; simp only; omega
  have hpos : 1 ≤ m := by
    by_contra h
    have hm : m = 0 := by omega
    rw [hm] at hs
    have : (0 : ℤ) < ∑ i, u i := Finset.sum_pos (fun i _ => by have := hu i; omega) Finset.univ_nonempty
    simp only [Nat.cast_zero, zero_mul] at hs
    omega
  rw [torForm, LinearMap.comp_apply, LinearMap.comp_apply, LinearMap.mulLeft_apply, LinearMap.mulLeft_apply,
    ← map_smul, Submodule.mkQ_apply, Submodule.mkQ_apply, Submodule.Quotient.eq]
  have hsingle : ∀ j, 0 ≤ (Pi.single i 1 : Fin (n + 1) → ℤ) j := by
    intro j
    by_cases h : j = i
    · subst h; simp
    · simp [Pi.single_eq_of_ne h]
  have ha : ∀ j, 0 ≤ ((fun j => u j - 1) + w + Pi.single i 1 : Fin (n + 1) → ℤ) j := fun j =>
    add_nonneg (add_nonneg (hu1 j) (hw j)) (hsingle j)
  have key := Ex_mem (R := R) f d (m + k) i ((fun j => u j - 1) + w + Pi.single i 1) (by omega) ha (by
    simp only [Pi.add_apply, Finset.sum_add_distrib, Finset.sum_sub_distrib, Finset.sum_pi_single', hs, hk]
    simp
    ring)
  rw [add_sub_cancel_right, Pi.add_apply, Pi.add_apply, Pi.single_eq_same] at key
  have hX : (X i : MvPolynomial (Fin (n + 1)) R) = xpow R (Pi.single i 1) := by
    rw [xpow_of_nonneg hsingle, X]
    refine congrArg (fun a => monomial a (1 : R)) ?_
    ext j
    by_cases h : j = i
    · subst h; simp
    · simp [Pi.single_eq_of_ne h, Finsupp.single_eq_of_ne h]
  have e1 : xpow R (fun j => u j - 1) * (xpow R w * xd i f) =
      xpow R ((fun j => u j - 1) + w + Pi.single i 1) * pderiv i f := by
    rw [xd, hX, ← xpow_mul (a := (fun j => u j - 1) + w) (fun j => add_nonneg (hu1 j) (hw j)) hsingle,
      ← xpow_mul hu1 hw]
    ring
  rw [e1, xpow_mul hu1 hw]
  have e2 : u i - 1 + w i + 1 = u i + w i := by ring
  rw [e2] at key
  exact key

/-- The exponent shift by `u`, modulo the logarithmic relations. -/
noncomputable def logMap (R : Type) [CommRing R] {n : Nat} (u : Fin (n + 1) → ℤ) :
    MvPolynomial (Fin (n + 1)) R →ₗ[R] Laurent R n :=
  (basisMonomials (Fin (n + 1)) R).constr R (fun a => Finsupp.single (fun j => u j + (a j : ℤ)) 1)

theorem logMap_monomial {n : Nat} (u : Fin (n + 1) → ℤ) (a : Fin (n + 1) →₀ ℕ) (c : R) :
    logMap R u (monomial a c) = Finsupp.single (fun j => u j + (a j : ℤ)) c := by
  have h : (monomial a c : MvPolynomial (Fin (n + 1)) R) = c • basisMonomials (Fin (n + 1)) R a := by
    rw [coe_basisMonomials, smul_monomial, smul_eq_mul, mul_one]
  rw [h, map_smul, logMap, Module.Basis.constr_basis, Finsupp.smul_single, smul_eq_mul, mul_one]

theorem logMap_xpow {n : Nat} (u : Fin (n + 1) → ℤ) {w : Fin (n + 1) → ℤ} (hw : ∀ j, 0 ≤ w j) :
    logMap R u (xpow R w) = Finsupp.single (fun j => u j + w j) 1 := by
  rw [xpow_of_nonneg hw, logMap_monomial]
  congr 1
  funext j
  simp [Int.toNat_of_nonneg (hw j)]

theorem logMap_rel {n : Nat} {f : MvPolynomial (Fin (n + 1)) R} (d : Nat) (u : Fin (n + 1) → ℤ) :
    TorRel d f u ((logExact f).mkQ ∘ₗ logMap R u) := by
  intro w i k hw _
  rw [LinearMap.comp_apply, LinearMap.comp_apply, ← map_smul, Submodule.mkQ_apply, Submodule.mkQ_apply,
    Submodule.Quotient.eq, logMap_xpow u hw]
  have hxd : xd i f = ∑ m ∈ f.support, monomial m ((m i : R) * coeff m f) := by
    conv_lhs => rw [xd, f.as_sum]
    rw [map_sum, Finset.mul_sum]
    refine Finset.sum_congr rfl (fun m _ => ?_)
    rw [pderiv_monomial, X, monomial_mul, one_mul]
    by_cases h : m i = 0
    · rw [h]; simp
    · have : Finsupp.single i 1 + (m - Finsupp.single i 1) = m := by
        ext j
        by_cases hj : j = i
        · subst hj; simp; omega
        · simp [Finsupp.single_eq_of_ne hj]
      rw [this, mul_comm]
  have hmem : logRel f (fun j => u j + w j) i ∈ logExact f := Submodule.subset_span ⟨_, _, rfl⟩
  have e : logMap R u (xpow R w * xd i f) =
      ∑ m ∈ f.support, Finsupp.single (fun j => u j + w j + (m j : ℤ)) ((m i : R) * coeff m f) := by
    rw [hxd, Finset.mul_sum, map_sum]
    refine Finset.sum_congr rfl (fun m _ => ?_)
    rw [xpow_of_nonneg hw, monomial_mul, one_mul, logMap_monomial]
    congr 1
    funext j
    simp [Int.toNat_of_nonneg (hw j)]
    ring
  rw [e, Finsupp.smul_single, smul_eq_mul, mul_one]
  exact hmem

end Verif
