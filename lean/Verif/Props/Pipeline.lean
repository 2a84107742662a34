import Verif.Lemmas.Pipeline
import Verif.Spec.Pipeline

/-!
Properties C64 and C65: the Frobenius matrices, and `zeta_function` from the polynomial to the result.
-/

namespace Verif

open Spec MvPolynomial

section

variable {p : ℕ} [hprime : Fact p.Prime] {K : ℕ}

/-- **C64 (`frob_matrix_J`).**  For every object of the constructor with `n/p <= m_i` for all pole orders, and all numbers
of terms whose coefficients fit (`TermsFit`: up to 50 for `n <= 3`), for every table left by earlier calls, with and without preparation, in every order of the
parallel loop: a returned matrix is the Frobenius matrix; the only possible failure is an assertion; and the call returns
whenever `N` has `n` entries and `p^n` does not divide the factorials. -/
theorem C64_frob_matrix_J_partial (hK : 1 ≤ K) {solve : Solver (ZMod (p ^ K))} {p' n d : ℕ}
    {f : MonMap (ZMod (p ^ K))} {D : DR (ZMod (p ^ K))} (hC : Constructed solve p' f n d D) (hn : 1 ≤ n)
    (hlow : ∀ b ∈ D.basis, n / p ≤ poleOrder n d b)
    {T : List (MonMap (ZMod (p ^ K)))} (hT : Reached n f T) (pre : Bool) {order : List ℕ}
    (ho : order.Perm (List.range D.basis.length)) (N : List ℤ) (hN : ∀ x ∈ N, TermsFit n x) :
    (∀ r, frobMatrixJ solve D p pre order T N = .ok r → r.1.rows = D.basis.length ∧ r.1.cols = D.basis.length ∧
      IsFrobenius (toPoly (n + 1) f) d p D.basis N r.1.e) ∧
    (∀ e, frobMatrixJ solve D p pre order T N = .error e → e = .assertFail) ∧
    (N.length = n → (∀ b ∈ D.basis, ∀ Ni : ℤ, N[poleOrder n d b - 1]? = some Ni → 0 < Ni →
        ¬ p ^ n ∣ (p * (poleOrder n d b + Ni.toNat - 1) - 1).factorial) →
      ∃ r, frobMatrixJ solve D p pre order T N = .ok r) := by
  have hnt := nontrivial_pow (p := p) hK
  have hcol := C33_columns (p := p) hC hn hT pre ho N (fun b Ni hb _ hp => by have := hlow b hb; omega)
  have hinit := hC.init
  have hpole : ∀ (i : ℕ) b, D.basis[i]? = some b → 1 ≤ poleOrder n d b ∧ poleOrder n d b ≤ n := by
    intro i b hb
    obtain ⟨e1, e2, hI⟩ := hinit
    have := basis_pole hI.basis (by have := hI.ok.hd; omega) hb
    rw [e1, e2] at this
    exact ⟨this.1, this.2.1⟩
  have hd0 : d ≠ 0 := by
    obtain ⟨e1, e2, hI⟩ := hinit
    have := hI.ok.hd; omega
  have hfD : D.f = f := hinit.2.2.f_eq
  have hnD : D.n = n := hinit.1
  have hdD : D.d = d := hinit.2.1
  have hch : ∀ Ni ∈ N, ∀ i j : ℕ, j ≤ i → (i : ℤ) < Ni → i.choose j < 2 ^ 63 :=
    fun Ni h i j hj hi => (hN Ni h).choose hn hj hi
  have hdj : ∀ b ∈ D.basis, ∀ Ni : ℕ, (Ni : ℤ) ∈ N → ∀ j, j < Ni → poleOrder n d b + j ≤ n / p →
      (djm (poleOrder n d b) Ni j).natAbs < 2 ^ 63 := by
    intro b hb Ni hNi j hj' _
    obtain ⟨i, hi⟩ := List.mem_iff_getElem?.1 hb
    have := hpole i b hi
    exact hN _ hNi _ j this.1 this.2 (by omega)
  have hcall : ∀ T', Reached n f T' → ∀ (i : ℕ) b, D.basis[i]? = some b → ∀ Ni : ℤ, Ni ∈ N → 0 < Ni →
      (∀ r, frobJ solve D p T' i Ni.toNat = .ok r → Reached n f r.2 ∧ r.1.len = D.basis.length) ∧
      (∀ e, frobJ solve D p T' i Ni.toNat = .error e → e = .assertFail) ∧
      (¬ p ^ n ∣ (p * (poleOrder n d b + Ni.toNat - 1) - 1).factorial → ∃ r, frobJ solve D p T' i Ni.toNat = .ok r) := by
    rintro T' ⟨powers, hpow⟩ i b hb Ni hNi hp
    have hbm := List.mem_of_getElem? hb
    have h := C47_frob_J_partial (p := p) hK hC hn .poly i Ni.toNat b hb (by omega) (hlow b hbm)
      (fun i j hj hi => hch Ni hNi i j hj (by omega))
      (fun j hj hj' => hdj b hbm Ni.toNat (by rw [Int.toNat_of_nonneg (by omega)]; exact hNi) j hj hj') powers T' hpow
    exact ⟨fun r hr => ⟨⟨_, (h.1 r hr).2.1⟩, (h.1 r hr).1⟩, h.2.2, h.2.1⟩
  refine ⟨fun r hr => ?_, fun e he => ?_, fun hlen hfac => ?_⟩
  · obtain ⟨h1, h2, -, h3⟩ := hcol.1 r hr
    refine ⟨h1, h2, fun i b hb => ?_⟩
    have hlen : N.length = n := (hcol.2.1 ⟨r, hr⟩).1
    obtain ⟨hp1, hp2⟩ := hpole i b hb
    obtain ⟨Ni, -, hNi⟩ := pole_iget (n := n) (d := d) (b := b) hp1 hp2 hlen
    refine ⟨Ni, hNi, fun hle k _ => (h3 i b Ni hb hNi).1 hle k, fun hpos => ?_⟩
    have e1 : ((Ni.toNat : ℕ) : ℤ) = Ni := Int.toNat_of_nonneg (by omega)
    exact C33_matrix_class_partial hK hC hn hlow hT pre ho N hch r hr i b Ni.toNat hb (by rw [e1]; exact hNi) (by omega)
      (hdj b (List.mem_of_getElem? hb) Ni.toNat (by rw [e1]; exact List.mem_of_getElem? hNi))
  · unfold frobMatrixJ at he
    by_cases hlen : D.n = N.length
    · rw [decide_eq_true hlen, check_true, Res.bind_ok] at he
      obtain ⟨T0, h1, h2⟩ := prepare_reached hC.wf hC.hom hT pre (N := N) (by
        intro h; rw [h] at hlen; simp at hlen; omega)
      rw [hfD, h1, Res.bind_ok] at he
      cases hs : order.foldlM (frobIter solve D p N) (T0, fun _ => CVec.mk' D.basis.length (fun _ => 0)) with
      | ok s => rw [hs, Res.bind_ok] at he; cases he
      | error e' =>
        rw [hs, Res.bind_error] at he
        obtain rfl := Except.error.inj he
        refine mFold_error (frob := frobJ solve D p) (n := D.n) (d := D.d) (basis := D.basis) (prec := N) (by omega)
          (Reached n f) ?_ ?_ ?_ order (fun i hi => List.mem_range.1 (ho.mem_iff.1 hi)) T0 _ e' h2 hs
        · intro i b hb
          obtain ⟨hp1, hp2⟩ := hpole i b hb
          obtain ⟨Ni, h, -⟩ := pole_iget (n := D.n) (d := D.d) (b := b) (by rw [hnD, hdD]; exact hp1)
            (by rw [hnD, hdD]; exact hp2) hlen.symm
          exact ⟨Ni, h⟩
        · intro T' i Ni r hi hT' hNi hp hr
          exact (hcall T' hT' i _ (List.getElem?_eq_getElem hi) Ni hNi hp).1 r hr
        · intro T' i Ni e hi hT' hNi hp hr
          exact (hcall T' hT' i _ (List.getElem?_eq_getElem hi) Ni hNi hp).2.1 e hr
    · rw [decide_eq_false hlen, check_false, Res.bind_error] at he
      exact (Except.error.inj he).symm
  · refine hcol.2.2 ⟨hlen, fun i b Ni hb hNi hp => ?_⟩
    exact (hcall T hT i b hb Ni (List.mem_of_getElem? hNi) hp).2.2 (hfac b (List.mem_of_getElem? hb) Ni hNi hp)

/-- **C64 (`frob_matrix_ND`).**  The same for the non-degenerate object, for polynomials that the finite differences of the
batched reduction handle (`FlintBatchOK`: the modulus has more than one limb, or `p <= n + 1`, or the coefficient matrices
for `u` a multiple of `p` and for `u = v` are nested). -/
theorem C64_frob_matrix_ND_partial (hK : 1 ≤ K) {solve : Solver (ZMod (p ^ K))} {p' n d : ℕ}
    {f : MonMap (ZMod (p ^ K))} {D : ND (ZMod (p ^ K))} (hC : ConstructedND solve p' f n d D) (hn : 1 ≤ n)
    (hfl : FlintBatchOK (p ^ K) p n d solve D)
    {T : List (MonMap (ZMod (p ^ K)))} (hT : Reached n f T) (pre : Bool) {order : List ℕ}
    (ho : order.Perm (List.range D.basis.length)) (N : List ℤ) (hN : ∀ x ∈ N, TermsFit n x) :
    (∀ r, frobMatrixND solve D p pre order T N = .ok r → r.1.rows = D.basis.length ∧ r.1.cols = D.basis.length ∧
      IsFrobenius (toPoly (n + 1) f) d p D.basis N r.1.e) ∧
    (∀ e, frobMatrixND solve D p pre order T N = .error e → e = .assertFail) ∧
    (N.length = n → (∀ b ∈ D.basis, ∀ Ni : ℤ, N[poleOrder n d b - 1]? = some Ni → 0 < Ni →
        ¬ p ^ n ∣ (p * (poleOrder n d b + Ni.toNat - 1) - 1).factorial) →
      ∃ r, frobMatrixND solve D p pre order T N = .ok r) := by
  have hnt := nontrivial_pow (p := p) hK
  have hcol := C51_columns (p := p) hC hn hT pre ho N
  have hinit := hC.init
  have hpole : ∀ (i : ℕ) b, D.basis[i]? = some b → 1 ≤ poleOrder n d b ∧ poleOrder n d b ≤ n := by
    intro i b hb
    obtain ⟨e1, e2, hI⟩ := hinit
    have := basis_pole hI.base.basis (by have := hI.base.ok.hd; omega) hb
    rw [e1, e2] at this
    exact ⟨this.1, this.2.1⟩
  have hd0 : d ≠ 0 := by
    obtain ⟨e1, e2, hI⟩ := hinit
    have := hI.base.ok.hd; omega
  have hfD : D.f = f := hinit.2.2.base.f_eq
  have hnD : D.n = n := hinit.1
  have hdD : D.d = d := hinit.2.1
  have hdj : ∀ (i : ℕ) b, D.basis[i]? = some b → ∀ Ni : ℕ, (Ni : ℤ) ∈ N → ∀ j, j < Ni →
      (djm (poleOrder n d b) Ni j).natAbs < 2 ^ 63 := by
    intro i b hb Ni hNi j hj
    have := hpole i b hb
    exact hN _ hNi _ j this.1 this.2 (by omega)
  have hcall : ∀ T', Reached n f T' → ∀ (i : ℕ) b, D.basis[i]? = some b → ∀ Ni : ℤ, Ni ∈ N → 0 < Ni →
      (∀ r, frobNDFlint solve D p T' i Ni.toNat = .ok r → Reached n f r.2 ∧ r.1.len = D.basis.length) ∧
      (∀ e, frobNDFlint solve D p T' i Ni.toNat = .error e → e = .assertFail) ∧
      (¬ p ^ n ∣ (p * (poleOrder n d b + Ni.toNat - 1) - 1).factorial →
        ∃ r, frobNDFlint solve D p T' i Ni.toNat = .ok r) := by
    rintro T' ⟨powers, hpow⟩ i b hb Ni hNi hp
    have h := C49_frob_ND_flint_partial (p := p) hK hC hn hfl i Ni.toNat b hb (by omega)
      (hdj i b hb Ni.toNat (by rw [Int.toNat_of_nonneg (by omega)]; exact hNi)) powers T' hpow
    exact ⟨fun r hr => ⟨⟨_, (h.1 r hr).2.1⟩, (h.1 r hr).1⟩, h.2.2, h.2.1⟩
  refine ⟨fun r hr => ?_, fun e he => ?_, fun hlen hfac => ?_⟩
  · obtain ⟨h1, h2, -, h3⟩ := hcol.1 r hr
    refine ⟨h1, h2, fun i b hb => ?_⟩
    have hlen : N.length = n := (hcol.2.1 ⟨r, hr⟩).1
    obtain ⟨hp1, hp2⟩ := hpole i b hb
    obtain ⟨Ni, -, hNi⟩ := pole_iget (n := n) (d := d) (b := b) hp1 hp2 hlen
    refine ⟨Ni, hNi, fun hle k _ => (h3 i b Ni hb hNi).1 hle k, fun hpos => ?_⟩
    have e1 : ((Ni.toNat : ℕ) : ℤ) = Ni := Int.toNat_of_nonneg (by omega)
    exact C51_matrix_class_partial hK hC hn hfl hT pre ho N r hr i b Ni.toNat hb (by rw [e1]; exact hNi) (by omega)
      (hdj i b hb Ni.toNat (by rw [e1]; exact List.mem_of_getElem? hNi))
  · unfold frobMatrixND at he
    by_cases hlen : D.n = N.length
    · rw [decide_eq_true hlen, check_true, Res.bind_ok] at he
      obtain ⟨T0, h1, h2⟩ := prepare_reached hC.wf hC.hom hT pre (N := N) (by
        intro h; rw [h] at hlen; simp at hlen; omega)
      rw [hfD, h1, Res.bind_ok] at he
      cases hs : order.foldlM (frobIterND solve D p N) (T0, fun _ => CVec.mk' D.basis.length (fun _ => 0)) with
      | ok s => rw [hs, Res.bind_ok] at he; cases he
      | error e' =>
        rw [hs, Res.bind_error] at he
        obtain rfl := Except.error.inj he
        refine mFold_error (frob := frobNDFlint solve D p) (n := D.n) (d := D.d) (basis := D.basis) (prec := N) (by omega)
          (Reached n f) ?_ ?_ ?_ order (fun i hi => List.mem_range.1 (ho.mem_iff.1 hi)) T0 _ e' h2 hs
        · intro i b hb
          obtain ⟨hp1, hp2⟩ := hpole i b hb
          obtain ⟨Ni, h, -⟩ := pole_iget (n := D.n) (d := D.d) (b := b) (by rw [hnD, hdD]; exact hp1)
            (by rw [hnD, hdD]; exact hp2) hlen.symm
          exact ⟨Ni, h⟩
        · intro T' i Ni r hi hT' hNi hp hr
          exact (hcall T' hT' i _ (List.getElem?_eq_getElem hi) Ni hNi hp).1 r hr
        · intro T' i Ni e hi hT' hNi hp hr
          exact (hcall T' hT' i _ (List.getElem?_eq_getElem hi) Ni hNi hp).2.1 e hr
    · rw [decide_eq_false hlen, check_false, Res.bind_error] at he
      exact (Except.error.inj he).symm
  · refine hcol.2.2 ⟨hlen, fun i b Ni hb hNi hp => ?_⟩
    exact (hcall T hT i b hb Ni (List.mem_of_getElem? hNi) hp).2.2 (hfac b (List.mem_of_getElem? hb) Ni hNi hp)

/-- Some factorial is divisible by `p^n`: the only case in which the exact division at the end can fail. -/
def Spec.DivisionMayFail (p n d : ℕ) (basis : List IVec) (N : List ℤ) : Prop :=
  ∃ b ∈ basis, ∃ Ni : ℤ, N[poleOrder n d b - 1]? = some Ni ∧ 0 < Ni ∧
    p ^ n ∣ (p * (poleOrder n d b + Ni.toNat - 1) - 1).factorial

/-- **C65 (general branch).**  From a smooth polynomial to the matrix: the object is built, and either the Frobenius matrix is
returned or the exact division fails. -/
theorem C65_branch_J (hK : 1 ≤ K) (hdvd : p ∣ p ^ K) {la : LinAlg (ZMod p)} (hla : LinAlgOK la) (flint pre : Bool)
    {order : ℕ → List ℕ} (ho : ∀ b, (order b).Perm (List.range b)) {n d : ℕ} (hn : 1 ≤ n) (hn2 : n < 2 * p) (hnd : n < d)
    {g : MonMap (ZMod (p ^ K))} (hg : WFPoly (n + 1) g) (hne : g ≠ []) (hdeg : ∀ e ∈ g, deg e.1 = d)
    (hsize : ∀ l ≤ (n + 1) * d, (l + n).choose n < 2 ^ 63) (hpd : ¬ p ∣ d) (hs : SmoothMod hdvd (toPoly (n + 1) g))
    {N : List ℤ} (hlen : N.length = n) (hN : ∀ x ∈ N, TermsFit n x) :
    ∃ D, Constructed (padicSolver p K la flint K) p g n d D ∧
      ((frobRoutine p la flint pre order K false g N = .error .assertFail ∧ DivisionMayFail p n d D.basis N) ∨
       ∃ Φ : Matrix (Fin D.basis.length) (Fin D.basis.length) (ZMod (p ^ K)),
        frobRoutine p la flint pre order K false g N = .ok (D.basis.length, CMat.ofMatrix Φ) ∧
        IsFrobenius (toPoly (n + 1) g) d p D.basis N (CMat.ofMatrix Φ).e) := by
  obtain ⟨D, hD⟩ := (C59_smooth hK hdvd hla flint le_rfl hg hne hdeg hsize (by omega)).1.2 ⟨hnd, hpd, hs⟩
  have hC : Constructed (padicSolver p K la flint K) p g n d D := ⟨padicSolver_ok hla flint le_rfl, hg, hdeg, hsize, hD⟩
  have hdiv : n / p ≤ 1 := by
    have := (Nat.div_lt_iff_lt_mul hprime.out.pos).2 hn2
    omega
  have hnD : D.n = n := hC.init.1
  obtain ⟨h1, h2, h3⟩ := C64_frob_matrix_J_partial (p := p) hK hC hn (fun b hb => by
    obtain ⟨i, hi⟩ := List.mem_iff_getElem?.1 hb
    obtain ⟨e1, e2, hI⟩ := hC.init
    have := (basis_pole hI.basis (by have := hI.ok.hd; omega) hi).1
    rw [e1, e2] at this
    omega) (reached_start n g) pre (ho _) N hN
  refine ⟨D, hC, ?_⟩
  have hrun : frobRoutine p la flint pre order K false g N =
      (frobMatrixJ (padicSolver p K la flint K) D p pre (order D.basis.length) (fpowStart n) N >>= fun r =>
        .ok (D.basis.length, trimMat r.1)) := by
    have hD' : DR.init (fun T => solveSystemPadic la flint T K) p g = .ok D := hD
    simp only [frobRoutine, Bool.false_eq_true, if_false, hD', Res.bind_ok, hnD]
    rfl
  rw [hrun]
  cases hr : frobMatrixJ (padicSolver p K la flint K) D p pre (order D.basis.length) (fpowStart n) N with
  | error e =>
    left
    obtain rfl := h2 e hr
    refine ⟨rfl, ?_⟩
    by_contra hc
    obtain ⟨r, hr'⟩ := h3 hlen (fun b hb Ni hNi hp hdv => hc ⟨b, hb, Ni, hNi, hp, hdv⟩)
    rw [hr] at hr'; cases hr'
  | ok r =>
    right
    obtain ⟨a1, a2, a3⟩ := h1 r hr
    refine ⟨Matrix.of (fun i j => r.1.e i j), by rw [Res.bind_ok, trimMat_ofMatrix r.1 a1 a2], ?_⟩
    intro i b hb
    obtain ⟨Ni, c1, c2, c3⟩ := a3 i b hb
    have hi : i < D.basis.length := (List.getElem?_eq_some_iff.1 hb).1
    have he : ∀ k, k < D.basis.length → (CMat.ofMatrix (Matrix.of (fun i j : Fin D.basis.length => r.1.e i j))).e k i =
        r.1.e k i := by
      intro k hk
      exact CMat.ofMatrix_e _ ⟨k, hk⟩ ⟨i, hi⟩
    refine ⟨Ni, c1, fun hle k hk => by rw [he k hk]; exact c2 hle k hk, fun hp => ?_⟩
    obtain ⟨c, d1, d2⟩ := c3 hp
    exact ⟨c, d1, fun k hk => by beta_reduce; rw [he k hk]; exact d2 k hk⟩

/-- **C65 (non-degenerate branch).**  The same, for models that the finite differences of the batched reduction handle. -/
theorem C65_branch_ND_partial (hK : 1 ≤ K) (hdvd : p ∣ p ^ K) {la : LinAlg (ZMod p)} (hla : LinAlgOK la) (flint pre : Bool)
    {order : ℕ → List ℕ} (ho : ∀ b, (order b).Perm (List.range b)) {n d : ℕ} (hn : 1 ≤ n) (hnd : n < d)
    {g : MonMap (ZMod (p ^ K))} (hg : WFPoly (n + 1) g) (hne : g ≠ []) (hdeg : ∀ e ∈ g, deg e.1 = d)
    (hsize : ∀ l ≤ (n + 1) * d, (l + n).choose n < 2 ^ 63) (hpd : ¬ p ∣ d) (hs : NondegMod hdvd (toPoly (n + 1) g))
    {N : List ℤ} (hlen : N.length = n) (hN : ∀ x ∈ N, TermsFit n x) :
    ∃ D : ND (ZMod (p ^ K)), ConstructedND (padicSolver p K la flint K) p g n d D ∧
      (FlintBatchOK (p ^ K) p n d (padicSolver p K la flint K) D →
      (frobRoutine p la flint pre order K true g N = .error .assertFail ∧ DivisionMayFail p n d D.basis N) ∨
       ∃ Φ : Matrix (Fin D.basis.length) (Fin D.basis.length) (ZMod (p ^ K)),
        frobRoutine p la flint pre order K true g N = .ok (D.basis.length, CMat.ofMatrix Φ) ∧
        IsFrobenius (toPoly (n + 1) g) d p D.basis N (CMat.ofMatrix Φ).e) := by
  obtain ⟨D, hD⟩ := (C59_nondegenerate hK hdvd hla flint le_rfl hg hne hdeg hsize (by omega)).1.2 ⟨hnd, hpd, hs⟩
  have hC : ConstructedND (padicSolver p K la flint K) p g n d D := ⟨padicSolver_ok hla flint le_rfl, hg, hdeg, hsize, hD⟩
  have hnD : D.n = n := hC.init.1
  refine ⟨D, hC, fun hfl => ?_⟩
  obtain ⟨h1, h2, h3⟩ := C64_frob_matrix_ND_partial (p := p) hK hC hn hfl (reached_start n g) pre (ho _) N hN
  have hrun : frobRoutine p la flint pre order K true g N =
      (frobMatrixND (padicSolver p K la flint K) D p pre (order D.basis.length) (fpowStart n) N >>= fun r =>
        .ok (D.basis.length, trimMat r.1)) := by
    have hD' : ND.init (fun T => solveSystemPadic la flint T K) p g = .ok D := hD
    simp only [frobRoutine, if_true, hD', Res.bind_ok, hnD]
    rfl
  rw [hrun]
  cases hr : frobMatrixND (padicSolver p K la flint K) D p pre (order D.basis.length) (fpowStart n) N with
  | error e =>
    left
    obtain rfl := h2 e hr
    refine ⟨rfl, ?_⟩
    by_contra hc
    obtain ⟨r, hr'⟩ := h3 hlen (fun b hb Ni hNi hp hdv => hc ⟨b, hb, Ni, hNi, hp, hdv⟩)
    rw [hr] at hr'; cases hr'
  | ok r =>
    right
    obtain ⟨a1, a2, a3⟩ := h1 r hr
    refine ⟨Matrix.of (fun i j => r.1.e i j), by rw [Res.bind_ok, trimMat_ofMatrix r.1 a1 a2], ?_⟩
    intro i b hb
    obtain ⟨Ni, c1, c2, c3⟩ := a3 i b hb
    have hi : i < D.basis.length := (List.getElem?_eq_some_iff.1 hb).1
    have he : ∀ k, k < D.basis.length → (CMat.ofMatrix (Matrix.of (fun i j : Fin D.basis.length => r.1.e i j))).e k i =
        r.1.e k i := by
      intro k hk
      exact CMat.ofMatrix_e _ ⟨k, hk⟩ ⟨i, hi⟩
    refine ⟨Ni, c1, fun hle k hk => by rw [he k hk]; exact c2 hle k hk, fun hp => ?_⟩
    obtain ⟨c, d1, d2⟩ := c3 hp
    exact ⟨c, d1, fun k hk => by beta_reduce; rw [he k hk]; exact d2 k hk⟩

end

section

variable {p : ℕ} [hprime : Fact p.Prime] {n d : ℕ}

/-- **C65 (`p` divides the degree).**  For every polynomial of degree `d >= 3` divisible by `p`, smooth or not, and with every
option, `zeta_function` stops with a message: the test of smoothness asks that the partial derivatives have no common zero, and
by Euler's identity they always have one when `p` divides `d`. -/
theorem C65_p_divides_d (la : RankDet (ZMod p)) (hla : RankDetOK la) (rnd : Rnd (ZMod p)) (t : ℕ) (frob : FrobRoutine p)
    (f : MonMap Int) (hf : WFPoly (n + 1) f) (hne : f ≠ []) (hdeg : ∀ e ∈ f, deg e.1 = d) (abs : ℤ)
    (increase better : Bool) (hd : 3 ≤ d) (hpd : p ∣ d) : zetaMain p la rnd t frob f abs increase better = .error .abort := by
  refine C40_singular la hla rnd t frob f hf hne hdeg abs increase better (fun h => ?_)
  have hdp : ∀ e ∈ reduceCoeffs p f, Spec.deg e.1 = d := by
    intro e he; obtain ⟨e', he', rfl⟩ := List.mem_map.1 he; exact hdeg e' he'
  have hhom := toPoly_isHomogeneous _ (wf_reduce p hf).1 hdp
  exact not_smooth hd ((ZMod.natCast_eq_zero_iff d p).2 hpd) hhom (noCommonZero_of_ideal.{0} (by omega) h)

/-- When no result is returned the random search was started: a better model was asked for and the polynomial is degenerate
modulo `p`. -/
theorem zetaMain_none (la : RankDet (ZMod p)) (hla : RankDetOK la) (rnd : Rnd (ZMod p)) (t : ℕ) (frob : FrobRoutine p)
    (f : MonMap Int) (hf : WFPoly (n + 1) f) (hne : f ≠ []) (hdeg : ∀ e ∈ f, deg e.1 = d) (hd : 3 ≤ d)
    (hsize : ∀ l ≤ (n + 1) * d, (l + n).choose n < 2 ^ 63) {abs : ℤ} {increase better : Bool}
    {z : ZetaPrec} (hz : choosePrec p n d abs increase = .ok z) (h0 : 0 < z.precision.toNat)
    (h : zetaMain p la rnd t frob f abs increase better = .ok none) :
    better = true ∧ ¬ NoCommonZero.{0} (fun i => X i * pderiv i (toPoly (n + 1) (reduceCoeffs p f))) := by
  rw [zetaMain_eq la rnd t frob f hf hne hdeg, hz, Res.bind_ok, Res.bind_eq_ok] at h
  obtain ⟨o, h1, h2⟩ := h
  cases o with
  | some o =>
    obtain ⟨nd, g⟩ := o
    simp only [Res.bind_eq_ok] at h2
    obtain ⟨_, -, _, -, _, -, h3⟩ := h2
    cases h3
  | none =>
    have hnep : reduceCoeffs p f ≠ [] := by intro h; exact hne (List.map_eq_nil_iff.1 h)
    have hdp : ∀ e ∈ reduceCoeffs p f, Spec.deg e.1 = d := by
      intro e he; obtain ⟨e', he', rfl⟩ := List.mem_map.1 he; exact hdeg e' he'
    rw [chooseModel, Res.bind_eq_ok] at h1
    obtain ⟨sm, e1, h1⟩ := h1
    cases sm with
    | false => cases h1
    | true =>
      rw [if_pos rfl, Res.bind_eq_ok] at h1
      obtain ⟨b, e2, h1⟩ := h1
      cases b with
      | true => cases h1
      | false =>
        cases better with
        | false => cases h1
        | true =>
          refine ⟨rfl, fun hz' => ?_⟩
          have : NeZero (p ^ z.precision.toNat) := ⟨pow_ne_zero _ hprime.out.ne_zero⟩
          obtain ⟨b, e3, h3⟩ := (C60_tests (q := p ^ z.precision.toNat) (dvd_pow_self p (by omega)) la hla (reduceCoeffs p f)
            (wf_reduce p hf) hnep hdp (by omega) hsize).2
          rw [e2] at e3
          have := h3.2 hz'
          rw [← Except.ok.inj e3] at this
          cases this

/-- **C65.**  `zeta_function` with its own constructors and Frobenius routines, for every homogeneous integer polynomial, every
prime, all options with a requested precision for which the coefficients fit (C32: at most 60 digits for curves, 55 for surfaces), every sequence of random numbers, every number of threads and
every order of the parallel loop.  Either it stops with a message, and then `(n, d)` is not in the table, or
the prime is too small for the requested precision, or the polynomial modulo `p` fails the test of smoothness;
or the random search is still running; or an object is built for a model `g` described by `ModelSpec` and, if the finite
differences handle that model: either the exact division fails, or a matrix `Φ` satisfying `IsFrobenius` is computed and the
result is made of it as in C40. -/
theorem C65_zeta_partial (la : RankDet (ZMod p)) (hla : RankDetOK la) (rnd : Rnd (ZMod p)) (t : ℕ)
    {la' : LinAlg (ZMod p)} (hla' : LinAlgOK la') (flint pre : Bool) {order : ℕ → List ℕ}
    (ho : ∀ b, (order b).Perm (List.range b)) (f : MonMap Int) (hf : WFPoly (n + 1) f) (hne : f ≠ [])
    (hdeg : ∀ e ∈ f, deg e.1 = d) (abs : ℤ) (habs : TermsFit n abs) (increase better : Bool) (run : Res (Option (List ℤ × CMat ℤ)))
    (hrun : zetaMain p la rnd t (frobRoutine p la' flint pre order) f abs increase better = run) :
    (run = .error .abort ∧ (((n : ℤ), (d : ℤ)) ∉ defaultPairs ∨ choosePrec p n d abs increase = .error .abort ∨
      ¬ NoCommonZero.{0} (fun i => pderiv i (toPoly (n + 1) (reduceCoeffs p f))))) ∨
    (run = .ok none ∧ better = true ∧
      ¬ NoCommonZero.{0} (fun i => X i * pderiv i (toPoly (n + 1) (reduceCoeffs p f)))) ∨
    ∃ (a : DefaultArgs) (z : ZetaPrec) (h0 : 0 < z.precision.toNat) (nd : Bool) (g : MonMap (ZMod (p ^ z.precision.toNat)))
      (D : DR (ZMod (p ^ z.precision.toNat))),
      defaultArgs p n d = .ok a ∧ choosePrec p n d abs increase = .ok z ∧ abs ≤ z.precision ∧ ¬ p ∣ d ∧
      NoCommonZero.{0} (fun i => pderiv i (toPoly (n + 1) (reduceCoeffs p f))) ∧
      ModelSpec p (p ^ z.precision.toNat) n d (dvd_pow_self p (by omega)) better f nd g ∧
      Constructed (padicSolver p z.precision.toNat la' flint z.precision.toNat) p g n d D ∧
      (nd = true → ∃ N : ND (ZMod (p ^ z.precision.toNat)), N.toDR = D ∧
        ConstructedND (padicSolver p z.precision.toNat la' flint z.precision.toNat) p g n d N) ∧
      ((∀ N : ND (ZMod (p ^ z.precision.toNat)), nd = true → N.toDR = D →
          ConstructedND (padicSolver p z.precision.toNat la' flint z.precision.toNat) p g n d N →
          FlintBatchOK (p ^ z.precision.toNat) p n d (padicSolver p z.precision.toNat la' flint z.precision.toNat) N) →
        (run = .error .assertFail ∧ DivisionMayFail p n d D.basis z.N) ∨
        ∃ Φ : Matrix (Fin D.basis.length) (Fin D.basis.length) (ZMod (p ^ z.precision.toNat)),
          IsFrobenius (toPoly (n + 1) g) d p D.basis z.N (CMat.ofMatrix Φ).e ∧
          (z.lift = false → run = .ok (some ((List.range (D.basis.length + 1)).map
              (fun i => (Φ.map (fun x => (x.val : ℤ))).charpoly.coeff i % (p : ℤ) ^ abs.toNat),
            CMat.ofMatrix (Φ.map (fun x => (x.val : ℤ)))))) ∧
          (z.lift = true → Odd p → ∀ (P : Polynomial ℤ) (ε : ℤ), P.Monic → P.natDegree = D.basis.length →
            WeilRoots P p (n - 1) → (ε = 1 ∨ ε = -1) → FunctionalEquation P D.basis.length p (n - 1) ε →
            (∀ i, 1 ≤ i → i < D.basis.length → (Φ.map (fun x => (x.val : ℤ))).charpoly.coeff i ≡ P.coeff i
              [ZMOD (p : ℤ) ^ (a.charpolyPrec.getD i 0).toNat]) →
            (ε = 1 ∨ (Even (n - 1) ∧ ∃ j, 1 ≤ j ∧ 2 * j ≤ D.basis.length ∧
              ¬ (p : ℤ) ^ (min (a.charpolyPrec.getD j 0)
                (a.charpolyPrec.getD (D.basis.length - j) 0 + halfWeight D.basis.length (n - 1) j)).toNat ∣ P.coeff j)) →
            run = .ok (some ((List.range (D.basis.length + 1)).map P.coeff,
              CMat.ofMatrix (Φ.map (fun x => (x.val : ℤ))))))) := by
  have hp : p.Prime := hprime.out
  by_cases hmem : ((n : ℤ), (d : ℤ)) ∈ defaultPairs
  swap
  · left
    refine ⟨?_, Or.inl hmem⟩
    rw [← hrun, zetaMain_eq la rnd t _ f hf hne hdeg, choosePrec, (C12_domain p n d).2 hmem]
    rfl
  obtain ⟨a, ha⟩ := (C12_domain p n d).1 hmem
  obtain ⟨b1, b2, b3, b4⟩ := pairs_bounds hmem
  obtain ⟨-, hsize⟩ := size_default ha
  have hdp : ∀ e ∈ reduceCoeffs p f, Spec.deg e.1 = d := by
    intro e he; obtain ⟨e', he', rfl⟩ := List.mem_map.1 he; exact hdeg e' he'
  have hhom := toPoly_isHomogeneous _ (wf_reduce p hf).1 hdp
  have hgh : ∀ i, (pderiv i (toPoly (n + 1) (reduceCoeffs p f))).IsHomogeneous (d - 1) := fun i => hhom.pderiv
  have hiff := noCommonZero_iff (l := (d - 2) * (n + 1) + 1) hgh (by omega) (by
    rw [show d - 1 - 1 = d - 2 by omega]; omega)
  by_cases hs : NoCommonZero.{0} (fun i => pderiv i (toPoly (n + 1) (reduceCoeffs p f)))
  swap
  · left
    refine ⟨?_, Or.inr (Or.inr hs)⟩
    rw [← hrun]
    exact C40_singular la hla rnd t _ f hf hne hdeg abs increase better (fun h => hs (hiff.1 h))
  have hpd : ¬ p ∣ d := fun h => not_smooth b3 ((ZMod.natCast_eq_zero_iff d p).2 h) hhom hs
  cases hz : choosePrec p n d abs increase with
  | error e =>
    obtain rfl := C40_precision_fails p hp n d abs increase e hz
    left
    refine ⟨?_, Or.inr (Or.inl rfl)⟩
    rw [← hrun, zetaMain_eq la rnd t _ f hf hne hdeg, hz]
    rfl
  | ok z =>
    obtain ⟨hlen, hN', -⟩ := terms_bound hp ha hz
    have hN : ∀ x ∈ z.N, TermsFit n x := fun x hx => by
      rcases le_max_iff.1 (hN' x hx) with h | h
      · exact termsFit_three b2 h
      · exact termsFit_mono habs h
    obtain ⟨h1, h0, h2⟩ := C40_result la hla rnd t (frobRoutine p la' flint pre order) f hf hne hdeg abs increase better
      ha hz (hiff.2 hs)
    right
    rcases h2 with h2 | ⟨nd, g, hM, herr, hres⟩
    · left; rw [← hrun]; exact ⟨h2, zetaMain_none la hla rnd t _ f hf hne hdeg b3 hsize hz h0 h2⟩
    right
    have hdvd : p ∣ p ^ z.precision.toNat := dvd_pow_self p (by omega)
    have hmap : map (ZMod.castHom hdvd (ZMod p)) (toPoly (n + 1) g) = reduce hdvd (toPoly (n + 1) g) := rfl
    have hpos : ∀ D, Constructed (padicSolver p z.precision.toNat la' flint z.precision.toNat) p g n d D →
        0 < D.basis.length := by
      intro D hC
      have h3 := C45_rank hC
      by_contra h4
      have h5 : D.basis.length = 0 := by omega
      rw [h5] at h3
      have hd2 : (2 : ℤ) ≤ (d : ℤ) - 1 := by omega
      generalize (d : ℤ) - 1 = x at h3 hd2
      have hx : 4 * x ≤ x ^ 3 := by nlinarith [mul_nonneg (show (0 : ℤ) ≤ x - 2 by omega) (show (0 : ℤ) ≤ x by omega)]
      obtain rfl | rfl : n = 2 ∨ n = 3 := by omega
      · push_cast at h3; linarith
      · have h6 : 0 < x ^ 4 := by positivity
        norm_num at h3
        linarith
    cases nd with
    | false =>
      have hsm : SmoothMod hdvd (toPoly (n + 1) g) := by
        obtain ⟨rfl, -⟩ := hM.degen rfl
        have : reduce hdvd (toPoly (n + 1) (reduceCoeffs (p ^ z.precision.toNat) f)) = toPoly (n + 1) (reduceCoeffs p f) := by
          show map _ _ = _
          rw [toPoly_reduce, toPoly_reduce, map_map]
          congr 2
          exact RingHom.ext_int _ _
        rw [SmoothMod, this]
        exact hs
      obtain ⟨D, hC, hbr⟩ := C65_branch_J (by omega) hdvd hla' flint pre ho (by omega) (by have := hp.two_le; omega) b4 hM.wf hM.ne hM.hom
        hsize hpd hsm hlen hN
      refine ⟨a, z, h0, false, g, D, ha, rfl, h1, hpd, hs, hM, hC, fun h => (by cases h), fun _ => ?_⟩
      rcases hbr with ⟨hbr, hdiv⟩ | ⟨Φ, hbr, hΦ⟩
      · left; rw [← hrun]; exact ⟨herr _ hbr, hdiv⟩
      · right
        obtain ⟨c1, c2⟩ := (hres _ Φ (hpos D hC) hbr).2 (C40_basis_assertion hp hC ha)
        rw [← hrun]
        exact ⟨Φ, hΦ, c1, c2⟩
    | true =>
      have hndm : NondegMod hdvd (toPoly (n + 1) g) := by
        have := noCommonZero_of_ideal.{0} (by omega) (hM.nondeg rfl)
        exact this
      obtain ⟨D, hC, hbr⟩ := C65_branch_ND_partial (by omega) hdvd hla' flint pre ho (by omega) b4 hM.wf hM.ne hM.hom hsize
        hpd hndm hlen hN
      have hCb := C45_base_ND hC
      refine ⟨a, z, h0, true, g, D.toDR, ha, rfl, h1, hpd, hs, hM, hCb, fun _ => ⟨D, rfl, hC⟩, fun hfl => ?_⟩
      rcases hbr (hfl D rfl rfl hC) with ⟨hbr, hdiv⟩ | ⟨Φ, hbr, hΦ⟩
      · left; rw [← hrun]; exact ⟨herr _ hbr, hdiv⟩
      · right
        obtain ⟨c1, c2⟩ := (hres _ Φ (hpos _ hCb) hbr).2 (C40_basis_assertion hp hCb ha)
        rw [← hrun]
        exact ⟨Φ, hΦ, c1, c2⟩

end

/-! ### Examples -/

section

/-- `x^3 + y^2 z + z^3`: smooth, but degenerate because of the point `(0 : 1 : 0)`. -/
def exWeier : MonMap ℤ := [([0, 0, 3], 1), ([0, 2, 1], 1), ([3, 0, 0], 1)]

theorem exWeier_wf : WFPoly (2 + 1) exWeier ∧ exWeier ≠ [] ∧ ∀ e ∈ exWeier, deg e.1 = (3 : ℕ) := by
  refine ⟨?_, by decide, by unfold exWeier; decide⟩
  unfold exWeier WFPoly NonNeg LexLt; decide

theorem exWeier_poly (p : ℕ) : toPoly (2 + 1) (reduceCoeffs p exWeier) = X 2 ^ 3 + (X 1 ^ 2 * X 2 + X 0 ^ 3) := by
  rw [exWeier, reduceCoeffs, List.map_cons, List.map_cons, List.map_cons, List.map_nil, toPoly_cons, toPoly_cons, toPoly_cons,
    toPoly_nil, add_zero, Int.cast_one, X_pow_eq_monomial, X_pow_eq_monomial, X_pow_eq_monomial, X, monomial_mul, one_mul]
  congr 1
  · refine congrArg (fun a => monomial a (1 : ZMod p)) ?_
    ext i; fin_cases i <;> simp [expo_apply]
  congr 1
  · refine congrArg (fun a => monomial a (1 : ZMod p)) ?_
    ext i; fin_cases i <;> simp [expo_apply]
  · refine congrArg (fun a => monomial a (1 : ZMod p)) ?_
    ext i; fin_cases i <;> simp [expo_apply]

theorem exWeier_smooth {p : ℕ} [hprime : Fact p.Prime] (hp : 5 ≤ p) :
    NoCommonZero.{0} (fun i => pderiv i (toPoly (2 + 1) (reduceCoeffs p exWeier))) := by
  intro K _ _ x hx
  haveI : CharP K p := (Algebra.charP_iff (ZMod p) K p).1 inferInstance
  have hne : ∀ k : ℕ, 0 < k → k < 5 → (k : K) ≠ 0 := by
    intro k h1 h2 h
    rw [CharP.cast_eq_zero_iff K p] at h
    exact absurd (Nat.le_of_dvd h1 h) (by omega)
  have h2 : (2 : K) ≠ 0 := by exact_mod_cast hne 2 (by norm_num) (by norm_num)
  have h3 : (3 : K) ≠ 0 := by exact_mod_cast hne 3 (by norm_num) (by norm_num)
  have e0 := hx 0
  have e1 := hx 1
  have e2 := hx 2
  rw [exWeier_poly] at e0 e1 e2
  simp [pderiv_pow, pderiv_X, h2, h3] at e0 e1 e2
  have hx1 : x 1 = 0 := by
    rcases e1 with h | h
    · rw [h] at e2
      simpa using e2
    · exact h
  have hx2 : x 2 = 0 := by
    rw [hx1] at e2
    simpa [h3] using e2
  funext i
  fin_cases i
  · exact e0
  · exact hx1
  · exact hx2

theorem exWeier_degenerate (p : ℕ) [hprime : Fact p.Prime] :
    ¬ NoCommonZero.{0} (fun i => X i * pderiv i (toPoly (2 + 1) (reduceCoeffs p exWeier))) := by
  intro h
  have := h (ZMod p) (fun i => if i = 1 then 1 else 0) (by
    intro i
    beta_reduce
    rw [exWeier_poly]
    fin_cases i <;> simp [pderiv_pow, pderiv_X])
  have := congrFun this 1
  simp at this

/-- For every prime `p >= 17`: `x^3 + y^2 z + z^3` with the default precision goes through the general branch, nothing fails, and the
matrix of the result is the Frobenius matrix. -/
example {p : ℕ} [hprime : Fact p.Prime] (hp : 17 ≤ p) (la : RankDet (ZMod p)) (hla : RankDetOK la) (rnd : Rnd (ZMod p)) (t : ℕ)
    {la' : LinAlg (ZMod p)} (hla' : LinAlgOK la') (flint pre : Bool) {order : ℕ → List ℕ}
    (ho : ∀ b, (order b).Perm (List.range b)) (increase : Bool) :
    ∃ (D : DR (ZMod (p ^ 1))) (Φ : Matrix (Fin D.basis.length) (Fin D.basis.length) (ZMod (p ^ 1))),
      Constructed (padicSolver p 1 la' flint 1) p (reduceCoeffs (p ^ 1) exWeier) 2 3 D ∧
      IsFrobenius (toPoly (2 + 1) (reduceCoeffs (p ^ 1) exWeier)) 3 p D.basis [0, 1] (CMat.ofMatrix Φ).e ∧
      zetaMain p la rnd t (frobRoutine p la' flint pre order) exWeier 0 increase false ≠ .ok none := by
  have hdef : defaultArgs p (2 : ℕ) (3 : ℕ) = .ok ⟨1, [0, 1], [3, 1, 1]⟩ := by
    rw [show ((2 : ℕ) : ℤ) = 2 from rfl, show ((3 : ℕ) : ℤ) = 3 from rfl, da_2_3, if_neg (by omega), if_neg (by omega),
      if_pos (by omega)]
  have hz : choosePrec p (2 : ℕ) (3 : ℕ) 0 increase = .ok ⟨1, [0, 1], [3, 1, 1], true⟩ := by
    rw [C40_precision_default _ _ _ _ _ (by norm_num), hdef]
    rfl
  have key := C65_zeta_partial la hla rnd t hla' flint pre ho exWeier exWeier_wf.1 exWeier_wf.2.1 exWeier_wf.2.2 0 (termsFit_three (by norm_num) (by norm_num))
    increase false _ rfl
  have hnone : zetaMain p la rnd t (frobRoutine p la' flint pre order) exWeier 0 increase false ≠ .ok none := by
    intro h
    have := (zetaMain_none la hla rnd t _ exWeier exWeier_wf.1 exWeier_wf.2.1 exWeier_wf.2.2 (by norm_num)
      (size_default hdef).2 hz (by norm_num) h).1
    cases this
  rcases key with ⟨h1, h2 | h2 | h2⟩ | h2 | ⟨a, z, h0, nd, g, D, -, hz', -, -, -, hM, hC, hN, hres⟩
  · exact absurd (by decide) h2
  · rw [hz] at h2; cases h2
  · exact absurd (exWeier_smooth (by omega)) h2
  · exact absurd h2.1 hnone
  · rw [hz] at hz'
    obtain rfl := (Except.ok.inj hz').symm
    have hg : g = reduceCoeffs (p ^ 1) exWeier := hM.same rfl
    subst hg
    have hnd : nd = false := by
      cases nd with
      | false => rfl
      | true =>
        exfalso
        have h := noCommonZero_of_ideal.{0} (by norm_num) (hM.nondeg rfl)
        refine exWeier_degenerate p ?_
        have e : map (ZMod.castHom (dvd_pow_self p (one_ne_zero)) (ZMod p)) (toPoly (2 + 1) (reduceCoeffs (p ^ 1) exWeier)) =
            toPoly (2 + 1) (reduceCoeffs p exWeier) := by
          rw [toPoly_reduce, toPoly_reduce, map_map]
          congr 2
          exact RingHom.ext_int _ _
        rw [← e]
        exact h
    subst hnd
    have hdiv : ¬ DivisionMayFail p 2 3 D.basis [0, 1] := by
      rintro ⟨b, hb, Ni, hNi, hpos, hdvd⟩
      obtain ⟨e1, e2, hI⟩ := hC.init
      obtain ⟨i, hi⟩ := List.mem_iff_getElem?.1 hb
      have hpole := basis_pole hI.basis (by have := hI.ok.hd; omega) hi
      rw [e1, e2] at hpole
      obtain ⟨hp1, hp2⟩ : 1 ≤ poleOrder 2 3 b ∧ poleOrder 2 3 b ≤ 2 := ⟨hpole.1, hpole.2.1⟩
      generalize poleOrder 2 3 b = m at *
      interval_cases m
      · obtain rfl : (0 : ℤ) = Ni := by simpa using hNi
        omega
      · obtain rfl : (1 : ℤ) = Ni := by simpa using hNi
        have e : p * (2 + (1 : ℤ).toNat - 1) - 1 = p * 1 + (p - 1) := by
          rw [show 2 + (1 : ℤ).toNat - 1 = 2 from rfl]
          omega
        rw [e, padicValNat_dvd_iff_le (Nat.factorial_ne_zero _), padicValNat_factorial_mul_add 1 (by omega),
          padicValNat_factorial_mul] at hdvd
        simp at hdvd
    rcases hres (fun N h => by cases h) with ⟨-, h⟩ | ⟨Φ, h1, -⟩
    · exact absurd h hdiv
    · exact ⟨D, Φ, hC, h1, hnone⟩

/-- A quartic surface in characteristic 3, where the finite differences are not used: the hypotheses of the non-degenerate branch
are met, with every precision. -/
example {K : ℕ} (hK : 1 ≤ K) (hprime : Fact (Nat.Prime 3)) {la : LinAlg (ZMod 3)} (hla : LinAlgOK la) (flint pre : Bool)
    {order : ℕ → List ℕ} (ho : ∀ b, (order b).Perm (List.range b)) :
    ∃ D : ND (ZMod (3 ^ K)), ConstructedND (padicSolver 3 K la flint K) 3 (fermat4 (ZMod (3 ^ K))) 3 4 D ∧
      ∃ Φ : Matrix (Fin D.basis.length) (Fin D.basis.length) (ZMod (3 ^ K)),
        frobRoutine 3 la flint pre order K true (fermat4 (ZMod (3 ^ K))) [2, 1, 0] = .ok (D.basis.length, CMat.ofMatrix Φ) ∧
        IsFrobenius (toPoly (3 + 1) (fermat4 (ZMod (3 ^ K)))) 4 3 D.basis [2, 1, 0] (CMat.ofMatrix Φ).e := by
  have hdvd : 3 ∣ 3 ^ K := dvd_pow_self 3 (by omega)
  obtain ⟨h1, h2, h3⟩ := fermat4_wf (ZMod (3 ^ K))
  obtain ⟨D, hC, h⟩ := C65_branch_ND_partial hK hdvd hla flint pre ho (by norm_num) (by norm_num) h1 h2 h3 size_quartic
    (by norm_num) (fermat4_nondeg (by norm_num) hK hdvd) (N := [2, 1, 0]) rfl
    (fun x hx => termsFit_three le_rfl ((by decide : ∀ x ∈ ([2, 1, 0] : List ℤ), x ≤ 50) x hx))
  refine ⟨D, hC, ?_⟩
  rcases h (Or.inr (Or.inl (by norm_num))) with ⟨-, h⟩ | h
  · exfalso
    obtain ⟨b, hb, Ni, hNi, hpos, hd⟩ := h
    obtain ⟨e1, e2, hI⟩ := hC.init
    obtain ⟨i, hi⟩ := List.mem_iff_getElem?.1 hb
    have hpole := basis_pole hI.base.basis (by have := hI.base.ok.hd; omega) hi
    rw [e1, e2] at hpole
    obtain ⟨hp1, hp2⟩ : 1 ≤ poleOrder 3 4 b ∧ poleOrder 3 4 b ≤ 3 := ⟨hpole.1, hpole.2.1⟩
    generalize poleOrder 3 4 b = m at *
    interval_cases m
    · obtain rfl : (2 : ℤ) = Ni := by simpa using hNi
      revert hd; decide
    · obtain rfl : (1 : ℤ) = Ni := by simpa using hNi
      revert hd; decide
    · obtain rfl : (0 : ℤ) = Ni := by simpa using hNi
      omega
  · exact h

/-- The elliptic curve of the earlier examples modulo 25, every table and every order: the general routine. -/
example (hprime : Fact (Nat.Prime 5)) {la : LinAlg (ZMod 5)} (hla : LinAlgOK la) (pre : Bool)
    {T : List (MonMap (ZMod (5 ^ 2)))} (hT : Reached 2 exCurve T) :
    ∃ D, Constructed (padicSolver 5 2 la true 2) 5 exCurve 2 3 D ∧ ∀ order, order.Perm (List.range D.basis.length) →
      ∃ r, frobMatrixJ (padicSolver 5 2 la true 2) D 5 pre order T [1, 0] = .ok r ∧
        IsFrobenius (toPoly (2 + 1) exCurve) 3 5 D.basis [1, 0] r.1.e := by
  obtain ⟨D, h, hb⟩ := exCurve_padic la hla true
  refine ⟨D, h, fun order ho => ?_⟩
  obtain ⟨h1, -, h3⟩ := C64_frob_matrix_J_partial (p := 5) (by norm_num) h (by norm_num)
    (fun b _ => by rw [show 2 / 5 = 0 from rfl]; omega) hT pre ho [1, 0]
    (fun x hx => termsFit_three (by norm_num) ((by decide : ∀ x ∈ ([1, 0] : List ℤ), x ≤ 50) x hx))
  obtain ⟨r, hr⟩ := h3 rfl (by
    intro b hb' Ni hNi hpos hd
    rw [hb] at hb'
    simp only [List.mem_cons, List.not_mem_nil, or_false] at hb'
    rcases hb' with rfl | rfl
    · rw [show poleOrder 2 3 [0, 0, 0] = 1 by decide] at hNi hd
      obtain rfl : (1 : ℤ) = Ni := by simpa using hNi
      revert hd; decide
    · rw [show poleOrder 2 3 [1, 1, 1] = 2 by decide] at hNi
      obtain rfl : (0 : ℤ) = Ni := by simpa using hNi
      omega)
  exact ⟨r, hr, (h1 r hr).2.2⟩

/-- `y^2 z - x^3 - x z^2`. -/
def exWeier3 : MonMap ℤ := [([0, 2, 1], 1), ([1, 0, 2], -1), ([3, 0, 0], -1)]

theorem exWeier3_wf : WFPoly (2 + 1) exWeier3 ∧ exWeier3 ≠ [] ∧ ∀ e ∈ exWeier3, deg e.1 = (3 : ℕ) := by
  refine ⟨?_, by decide, by unfold exWeier3; decide⟩
  unfold exWeier3 WFPoly NonNeg LexLt; decide

theorem exWeier3_poly : toPoly (2 + 1) (reduceCoeffs 3 exWeier3) = X 1 ^ 2 * X 2 + (-(X 0 * X 2 ^ 2) + -(X 0 ^ 3)) := by
  rw [exWeier3, reduceCoeffs, List.map_cons, List.map_cons, List.map_cons, List.map_nil, toPoly_cons, toPoly_cons, toPoly_cons,
    toPoly_nil, add_zero, Int.cast_one, X_pow_eq_monomial, X_pow_eq_monomial, X_pow_eq_monomial, X, X, monomial_mul, monomial_mul,
    one_mul, ← map_neg, ← map_neg, Int.cast_neg, Int.cast_one]
  congr 1
  · refine congrArg (fun a => monomial a (1 : ZMod 3)) ?_
    ext i; fin_cases i <;> simp [expo_apply]
  congr 1
  · refine congrArg (fun a => monomial a (-1 : ZMod 3)) ?_
    ext i; fin_cases i <;> simp [expo_apply]
  · refine congrArg (fun a => monomial a (-1 : ZMod 3)) ?_
    ext i; fin_cases i <;> simp [expo_apply]

/-- **C65 (a smooth curve is called singular).**  The curve `y^2 z = x^3 + x z^2` over `F_3` is smooth: over no field do the
polynomial and its partial derivatives have a common zero other than the origin.  `zeta_function` says it is not smooth. -/
theorem C65_smooth_rejected_wrong [hprime : Fact (Nat.Prime 3)] :
    (∀ (K : Type) [Field K] [Algebra (ZMod 3) K] (x : Fin (2 + 1) → K),
      aeval x (toPoly (2 + 1) (reduceCoeffs 3 exWeier3)) = 0 →
      (∀ i, aeval x (pderiv i (toPoly (2 + 1) (reduceCoeffs 3 exWeier3))) = 0) → x = 0) ∧
    ∀ (la : RankDet (ZMod 3)), RankDetOK la → ∀ (rnd : Rnd (ZMod 3)) (t : ℕ) (frob : FrobRoutine 3) (abs : ℤ)
      (increase better : Bool), zetaMain 3 la rnd t frob exWeier3 abs increase better = .error .abort := by
  refine ⟨?_, fun la hla rnd t frob abs increase better => C65_p_divides_d la hla rnd t frob exWeier3 exWeier3_wf.1 exWeier3_wf.2.1
    exWeier3_wf.2.2 abs increase better (by norm_num) dvd_rfl⟩
  intro K _ _ x h hx
  haveI : CharP K 3 := (Algebra.charP_iff (ZMod 3) K 3).1 inferInstance
  have h3 : (3 : K) = 0 := by exact_mod_cast CharP.cast_eq_zero K 3
  have e0 := hx 0
  have e2 := hx 2
  rw [exWeier3_poly] at h e0 e2
  simp [pderiv_pow, pderiv_X, h3] at h e0 e2
  rw [e0] at e2 h
  have hx1 : x 1 = 0 := by simpa using e2
  have hx0 : x 0 = 0 := by simpa using h
  funext i
  fin_cases i
  · exact hx0
  · exact hx1
  · exact e0

end

end Verif
