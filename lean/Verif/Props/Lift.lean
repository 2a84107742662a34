import Verif.Lemmas.Lift
import Verif.Props.Pipeline

/-!
C71: the truncated series is the lift of Frobenius on forms, modulo `p^N`.
-/

namespace Verif

open Spec MvPolynomial

variable {p K : ℕ} [hprime : Fact p.Prime]

/-- The series with `N` terms is the image of `x^b Ω / f^m` under `x_i ↦ x_i^p` (divided by `p^n`) up to multiples of `p^N`. -/
theorem C71_lift (hK : 1 ≤ K) {n : ℕ} (f : MvPolynomial (Fin (n + 1)) (ZMod (p ^ K))) {m : ℕ} (hm : 1 ≤ m) (N : ℕ) (b : Fin (n + 1) → ℤ) :
    IsLiftUpTo f p m b ((p : ZMod (p ^ K)) ^ N) (p * (m + N - 1)) (frobSeries f p m N b) := by
  refine ⟨frobSeries_support f p m N b, ?_⟩
  rw [numer_frobSeries f p hm]
  obtain ⟨g, hg⟩ := frob_lift_dvd hK f
  obtain ⟨q, hq⟩ := binTrunc_inverse (f ^ p) (f ^ p - expand p f) (m - 1) N
  rw [sub_sub_cancel, show m - 1 + 1 = m by omega, show m - 1 + N = m + N - 1 by omega] at hq
  refine ⟨g ^ N * q * xpow _ (fun i => p * (b i + 1) - 1), ?_⟩
  have e : C ((p : ZMod (p ^ K)) ^ N) * g ^ N = (f ^ p - expand p f) ^ N := by
    rw [hg, mul_pow]; simp
  have e2 : xpow (ZMod (p ^ K)) (fun i => (p : ℤ) * (b i + 1) - 1) * binTrunc (f ^ p) (f ^ p - expand p f) (m - 1) N * expand p (f ^ m) -
      xpow (ZMod (p ^ K)) (fun i => (p : ℤ) * (b i + 1) - 1) * f ^ (p * (m + N - 1)) =
      xpow (ZMod (p ^ K)) (fun i => (p : ℤ) * (b i + 1) - 1) *
        ((expand p f) ^ m * binTrunc (f ^ p) (f ^ p - expand p f) (m - 1) N - (f ^ p) ^ (m + N - 1)) := by
    rw [map_pow, pow_mul]; ring
  rw [e2, hq, ← e]
  ring

/-- A curve modulo `5^2` and the form `xyz Ω / f^2`, with one term: the series is the lift modulo 5. -/
example (hprime : Fact (Nat.Prime 5)) : IsLiftUpTo (toPoly (2 + 1) exCurve) 5 2 (ev 2 [1, 1, 1]) (((5 : ℕ) : ZMod (5 ^ 2)) ^ 1) 10
    (frobSeries (toPoly (2 + 1) exCurve) 5 2 1 (ev 2 [1, 1, 1])) :=
  C71_lift (p := 5) (K := 2) (by norm_num) _ (by norm_num) 1 _

/-- Not every form has the property: zero is not the lift of `Ω / f`, `f = x`, modulo 3. -/
example : ¬ IsLiftUpTo (X 0 : MvPolynomial (Fin (0 + 1)) (ZMod 9)) 3 1 (fun _ => 0) (3 : ZMod 9) 3 0 := by
  rintro ⟨-, H, hH⟩
  have hx : xpow (ZMod 9) (fun _ : Fin (0 + 1) => (3 : ℤ) * (0 + 1) - 1) = X 0 ^ 2 := by
    rw [xpow, if_pos (fun _ => by norm_num), X_pow_eq_monomial]
    have e : (Finsupp.equivFunOnFinite.symm (fun _ : Fin (0 + 1) => ((3 : ℤ) * (0 + 1) - 1).toNat)) = Finsupp.single 0 2 := by
      ext i
      fin_cases i
      simp
    rw [e]
  have h1 := congrArg (coeff (Finsupp.single 0 5)) hH
  rw [numer, Finsupp.sum_zero_index, zero_mul, zero_sub, Nat.cast_ofNat, hx, ← pow_add, coeff_neg, coeff_C_mul, coeff_X_pow, if_pos rfl] at h1
  revert h1
  generalize coeff (Finsupp.single 0 5) H = y
  revert y
  decide

/-- With at least as many terms as digits nothing is cut off. -/
theorem C71_exact (hK : 1 ≤ K) {n : ℕ} (f : MvPolynomial (Fin (n + 1)) (ZMod (p ^ K))) {m : ℕ} (hm : 1 ≤ m) {N : ℕ} (hN : K ≤ N)
    (b : Fin (n + 1) → ℤ) : IsLiftUpTo f p m b 0 (p * (m + N - 1)) (frobSeries f p m N b) := by
  have h := C71_lift hK f hm N b
  have e : (p : ZMod (p ^ K)) ^ N = 0 := by
    rw [← Nat.cast_pow, ZMod.natCast_eq_zero_iff]
    exact pow_dvd_pow p hN
  rwa [e] at h

example (hprime : Fact (Nat.Prime 5)) : IsLiftUpTo (toPoly (2 + 1) exCurve) 5 2 (ev 2 [1, 1, 1]) 0 15
    (frobSeries (toPoly (2 + 1) exCurve) 5 2 2 (ev 2 [1, 1, 1])) :=
  C71_exact (p := 5) (K := 2) (by norm_num) _ (by norm_num) (by norm_num) _

/-- One more term changes the form by a multiple of `p^N`. -/
theorem C71_next (hK : 1 ≤ K) {n : ℕ} (f : MvPolynomial (Fin (n + 1)) (ZMod (p ^ K))) {m : ℕ} (hm : 1 ≤ m) (N : ℕ) (b : Fin (n + 1) → ℤ) :
    ∃ H, numer f (p * (m + N)) (frobSeries f p m (N + 1) b) =
      f ^ p * numer f (p * (m + N - 1)) (frobSeries f p m N b) + C ((p : ZMod (p ^ K)) ^ N) * H := by
  obtain ⟨g, hg⟩ := frob_lift_dvd hK f
  refine ⟨xpow _ (fun i => p * (b i + 1) - 1) * (((m - 1 + N).choose (m - 1) : MvPolynomial (Fin (n + 1)) (ZMod (p ^ K))) * g ^ N), ?_⟩
  have h1 := numer_frobSeries f p hm (N + 1) b
  rw [show m + (N + 1) - 1 = m + N by omega] at h1
  have e : C ((p : ZMod (p ^ K)) ^ N) * g ^ N = (f ^ p - expand p f) ^ N := by
    rw [hg, mul_pow]; simp
  rw [h1, numer_frobSeries f p hm N b, binTrunc_succ, ← e]
  ring

example (hprime : Fact (Nat.Prime 5)) : ∃ H, numer (toPoly (2 + 1) exCurve) 15 (frobSeries (toPoly (2 + 1) exCurve) 5 2 2 (ev 2 [1, 1, 1])) =
    toPoly (2 + 1) exCurve ^ 5 * numer (toPoly (2 + 1) exCurve) 10 (frobSeries (toPoly (2 + 1) exCurve) 5 2 1 (ev 2 [1, 1, 1])) +
      C (((5 : ℕ) : ZMod (5 ^ 2)) ^ 1) * H :=
  C71_next (p := 5) (K := 2) (by norm_num) _ (by norm_num) 1 _

/-- The lift is determined: two forms with the property of `C71_lift` differ by a multiple of `p^N`, when `f` is not zero modulo `p`. -/
theorem C71_unique (hpK : p ∣ p ^ K) {n : ℕ} {f : MvPolynomial (Fin (n + 1)) (ZMod (p ^ K))}
    (hf : MvPolynomial.map (ZMod.castHom hpK (ZMod p)) f ≠ 0) {m N e : ℕ} (hN : N ≤ K) {b : Fin (n + 1) → ℤ}
    {ω ω' : Forms (ZMod (p ^ K)) n} (h : IsLiftUpTo f p m b ((p : ZMod (p ^ K)) ^ N) e ω)
    (h' : IsLiftUpTo f p m b ((p : ZMod (p ^ K)) ^ N) e ω') : ∃ H, numer f e ω - numer f e ω' = C ((p : ZMod (p ^ K)) ^ N) * H := by
  obtain ⟨-, H, hH⟩ := h
  obtain ⟨-, H', hH'⟩ := h'
  refine cancel_mod hpK (g := expand p (f ^ m)) ?_ hN _ ⟨H - H', ?_⟩
  · rw [map_expand, map_pow, expand_zmod]
    exact pow_ne_zero _ (pow_ne_zero _ hf)
  · rw [mul_sub, ← hH, ← hH']; ring

/-- `f = x y` modulo 9: every form with denominator `f^6` that is the lift of `Ω / f` modulo 9 has the numerator of the series. -/
example (hprime : Fact (Nat.Prime 3)) (ω : Forms (ZMod (3 ^ 2)) 1)
    (h : IsLiftUpTo (X 0 * X 1) 3 1 (fun _ => 0) (((3 : ℕ) : ZMod (3 ^ 2)) ^ 2) 6 ω) :
    ∃ H, numer (X 0 * X 1) 6 ω - numer (X 0 * X 1) 6 (frobSeries (X 0 * X 1) 3 1 2 (fun _ => 0)) = C (((3 : ℕ) : ZMod (3 ^ 2)) ^ 2) * H :=
  C71_unique (p := 3) (K := 2) ⟨3, rfl⟩ (by rw [map_mul, map_X, map_X]; exact mul_ne_zero (X_ne_zero _) (X_ne_zero _)) le_rfl h
    (C71_lift (by norm_num) _ le_rfl 2 _)

/-- **The Frobenius matrix is the matrix of the lift.**  For every object of the constructor, a column of a matrix with `IsFrobenius` holds the
coordinates, times a factorial, of the class of `p^(n-1) ω`, where `ω` is the image of the basis element under the lift, divided by
`p^n`, up to multiples of `p^Ni`. -/
theorem C71_column (hK : 1 ≤ K) {solve : Solver (ZMod (p ^ K))} {p' n d : ℕ} {f : MonMap (ZMod (p ^ K))} {D : DR (ZMod (p ^ K))}
    (hC : Constructed solve p' f n d D) {N : List ℤ} {Φ : ℕ → ℕ → ZMod (p ^ K)}
    (h : IsFrobenius (toPoly (n + 1) f) d p D.basis N Φ) {i : ℕ} {b : IVec} (hb : D.basis[i]? = some b) {Ni : ℤ}
    (hNi : N[poleOrder n d b - 1]? = some Ni) (hpos : 0 < Ni) :
    ∃ ω : Forms (ZMod (p ^ K)) n,
      IsLiftUpTo (toPoly (n + 1) f) p (poleOrder n d b) (ev n b) ((p : ZMod (p ^ K)) ^ Ni.toNat) (p * (poleOrder n d b + Ni.toNat - 1)) ω ∧
      Cohomologous (toPoly (n + 1) f) d
        ((((p * (poleOrder n d b + Ni.toNat - 1) - 1).factorial : ℕ) : ZMod (p ^ K)) • ((p ^ (n - 1) : ℕ) : ZMod (p ^ K)) • ω)
        ((((p * (poleOrder n d b + Ni.toNat - 1) - 1).factorial : ℕ) : ZMod (p ^ K)) • basisForm n d D.basis (fun k => Φ k i)) := by
  have hnt := nontrivial_pow (p := p) hK
  obtain ⟨Nj, e, -, h2⟩ := h i b hb
  rw [hNi] at e
  obtain rfl := Option.some.inj e
  have hm : 1 ≤ poleOrder n d b := by
    obtain ⟨rfl, rfl, hI⟩ := hC.init
    exact (basis_pole hI.basis (by have := hI.ok.hd; omega) hb).1
  exact ⟨_, C71_lift hK _ hm Ni.toNat (ev n b), C47_column_class hC hb (h2 hpos)⟩

/-- **C71 (`frob_matrix_J`)**, with the restrictions of C64. -/
theorem C71_frob_matrix_J_partial (hK : 1 ≤ K) {solve : Solver (ZMod (p ^ K))} {p' n d : ℕ}
    {f : MonMap (ZMod (p ^ K))} {D : DR (ZMod (p ^ K))} (hC : Constructed solve p' f n d D) (hn : 1 ≤ n)
    (hlow : ∀ b ∈ D.basis, n / p ≤ poleOrder n d b)
    {T : List (MonMap (ZMod (p ^ K)))} (hT : Reached n f T) (pre : Bool) {order : List ℕ}
    (ho : order.Perm (List.range D.basis.length)) (N : List ℤ) (hN : ∀ x ∈ N, TermsFit n x)
    {r : CMat (ZMod (p ^ K)) × List (MonMap (ZMod (p ^ K)))} (h : frobMatrixJ solve D p pre order T N = .ok r)
    {i : ℕ} {b : IVec} (hb : D.basis[i]? = some b) {Ni : ℤ} (hNi : N[poleOrder n d b - 1]? = some Ni) (hpos : 0 < Ni) :
    ∃ ω : Forms (ZMod (p ^ K)) n,
      IsLiftUpTo (toPoly (n + 1) f) p (poleOrder n d b) (ev n b) ((p : ZMod (p ^ K)) ^ Ni.toNat) (p * (poleOrder n d b + Ni.toNat - 1)) ω ∧
      Cohomologous (toPoly (n + 1) f) d
        ((((p * (poleOrder n d b + Ni.toNat - 1) - 1).factorial : ℕ) : ZMod (p ^ K)) • ((p ^ (n - 1) : ℕ) : ZMod (p ^ K)) • ω)
        ((((p * (poleOrder n d b + Ni.toNat - 1) - 1).factorial : ℕ) : ZMod (p ^ K)) • basisForm n d D.basis (fun k => r.1.e k i)) :=
  C71_column hK hC ((C64_frob_matrix_J_partial hK hC hn hlow hT pre ho N hN).1 r h).2.2 hb hNi hpos

/-- The matrix of a curve modulo `5^2` exists and its column of a basis element of pole order 1 is that of the lift. -/
example (hprime : Fact (Nat.Prime 5)) {la : LinAlg (ZMod 5)} (hla : LinAlgOK la) (pre : Bool)
    {T : List (MonMap (ZMod (5 ^ 2)))} (hT : Reached 2 exCurve T) :
    ∃ D, Constructed (padicSolver 5 2 la true 2) 5 exCurve 2 3 D ∧ ∀ order, order.Perm (List.range D.basis.length) →
      ∀ r, frobMatrixJ (padicSolver 5 2 la true 2) D 5 pre order T [1, 0] = .ok r →
      ∀ i b, D.basis[i]? = some b → poleOrder 2 3 b = 1 → ∃ ω : Forms (ZMod (5 ^ 2)) 2,
        IsLiftUpTo (toPoly (2 + 1) exCurve) 5 1 (ev 2 b) (((5 : ℕ) : ZMod (5 ^ 2)) ^ 1) 5 ω ∧
        Cohomologous (toPoly (2 + 1) exCurve) 3 (((24 : ℕ) : ZMod (5 ^ 2)) • ((5 : ℕ) : ZMod (5 ^ 2)) • ω)
          (((24 : ℕ) : ZMod (5 ^ 2)) • basisForm 2 3 D.basis (fun k => r.1.e k i)) := by
  obtain ⟨D, h, hb⟩ := exCurve_padic la hla true
  refine ⟨D, h, fun order ho r hr i b hb' hp => ?_⟩
  have := C71_frob_matrix_J_partial (p := 5) (by norm_num) h (by norm_num)
    (fun b _ => by rw [show 2 / 5 = 0 from rfl]; omega) hT pre ho [1, 0]
    (fun x hx => termsFit_three (by norm_num) ((by decide : ∀ x ∈ ([1, 0] : List ℤ), x ≤ 50) x hx)) hr hb' (Ni := 1)
    (by rw [hp]; rfl) (by norm_num)
  rw [hp] at this
  exact this

/-- **C71 (`frob_matrix_ND`)**, with the restrictions of C64; the basis is that of the degenerate object of the same polynomial. -/
theorem C71_frob_matrix_ND_partial (hK : 1 ≤ K) {solve : Solver (ZMod (p ^ K))} {p' n d : ℕ}
    {f : MonMap (ZMod (p ^ K))} {D : ND (ZMod (p ^ K))} (hC : ConstructedND solve p' f n d D) (hn : 1 ≤ n)
    (hfl : FlintBatchOK (p ^ K) p n d solve D)
    {T : List (MonMap (ZMod (p ^ K)))} (hT : Reached n f T) (pre : Bool) {order : List ℕ}
    (ho : order.Perm (List.range D.basis.length)) (N : List ℤ) (hN : ∀ x ∈ N, TermsFit n x)
    {r : CMat (ZMod (p ^ K)) × List (MonMap (ZMod (p ^ K)))} (h : frobMatrixND solve D p pre order T N = .ok r)
    {i : ℕ} {b : IVec} (hb : D.basis[i]? = some b) {Ni : ℤ} (hNi : N[poleOrder n d b - 1]? = some Ni) (hpos : 0 < Ni) :
    ∃ ω : Forms (ZMod (p ^ K)) n,
      IsLiftUpTo (toPoly (n + 1) f) p (poleOrder n d b) (ev n b) ((p : ZMod (p ^ K)) ^ Ni.toNat) (p * (poleOrder n d b + Ni.toNat - 1)) ω ∧
      Cohomologous (toPoly (n + 1) f) d
        ((((p * (poleOrder n d b + Ni.toNat - 1) - 1).factorial : ℕ) : ZMod (p ^ K)) • ((p ^ (n - 1) : ℕ) : ZMod (p ^ K)) • ω)
        ((((p * (poleOrder n d b + Ni.toNat - 1) - 1).factorial : ℕ) : ZMod (p ^ K)) • basisForm n d D.basis (fun k => r.1.e k i)) := by
  have hnt := nontrivial_pow (p := p) hK
  obtain ⟨Nj, e, -, h2⟩ := ((C64_frob_matrix_ND_partial hK hC hn hfl hT pre ho N hN).1 r h).2.2 i b hb
  rw [hNi] at e
  obtain rfl := Option.some.inj e
  obtain ⟨rfl, rfl, hI⟩ := hC.init
  have hd := hI.base.ok.hd
  obtain ⟨m1, -, m3⟩ := basis_pole hI.base.basis (by omega) hb
  exact ⟨_, C71_lift hK _ m1 Ni.toNat (ev D.n b), FrobColumn.cohomologous (h := h2 hpos) hprime.out
    (toPoly_isHomogeneous f hC.wf.1 hC.hom) hd m1 (sum_ev_tuple m3)
    (fun t ht => by obtain ⟨k, h1, -, h3⟩ := hI.base.basis.pole t ht; exact ⟨k, h1, h3⟩)⟩

/-- The matrix of `x^3 + y^3` modulo `2^3` exists, and its columns are those of the lifts. -/
example (hprime : Fact (Nat.Prime 2)) : ∃ (la : LinAlg (ZMod 2)) (N : ND (ZMod (2 ^ 3))) (T : List (MonMap (ZMod (2 ^ 3)))) (r : _),
    ConstructedND (padicSolver 2 3 la true 3) 2 exBinary 1 3 N ∧
    frobMatrixND (padicSolver 2 3 la true 3) N 2 true (List.range N.basis.length) T [1] = .ok r ∧
    ∀ i b, N.basis[i]? = some b → ∃ ω : Forms (ZMod (2 ^ 3)) 1,
      IsLiftUpTo (toPoly (1 + 1) exBinary) 2 1 (ev 1 b) (((2 : ℕ) : ZMod (2 ^ 3)) ^ 1) 2 ω ∧
      Cohomologous (toPoly (1 + 1) exBinary) 3 (((1 : ℕ) : ZMod (2 ^ 3)) • ((1 : ℕ) : ZMod (2 ^ 3)) • ω)
        (((1 : ℕ) : ZMod (2 ^ 3)) • basisForm 1 3 N.basis (fun k => r.1.e k i)) := by
  obtain ⟨la, hla⟩ := exists_linAlg (ZMod 2)
  obtain ⟨N, h, hb⟩ := exBinary_padicND la hla true
  obtain ⟨T, hT, -⟩ := C29_fpow_table h.wf h.hom [3, 1]
  have hfl : FlintBatchOK (2 ^ 3) 2 1 3 (padicSolver 2 3 la true 3) N := Or.inr (Or.inl (by norm_num))
  have hN : ∀ x ∈ ([1] : List ℤ), TermsFit 1 x := fun x hx =>
    termsFit_three (by norm_num) ((by decide : ∀ x ∈ ([1] : List ℤ), x ≤ 50) x hx)
  have hpo : ∀ b ∈ N.basis, poleOrder 1 3 b = 1 := by rw [hb]; decide
  obtain ⟨r, hr⟩ := (C64_frob_matrix_ND_partial (p := 2) (by norm_num) h (by norm_num) hfl ⟨_, hT⟩ true (List.Perm.refl _) [1] hN).2.2
    rfl (fun b hbm Ni hNi _ => by
      rw [hpo b hbm] at hNi ⊢
      obtain rfl : (1 : ℤ) = Ni := by simpa using hNi
      decide)
  refine ⟨la, N, T, r, h, hr, fun i b hbi => ?_⟩
  have hp := hpo b (List.mem_of_getElem? hbi)
  have := C71_frob_matrix_ND_partial (p := 2) (by norm_num) h (by norm_num) hfl ⟨_, hT⟩ true (List.Perm.refl _) [1] hN hr hbi (Ni := 1)
    (by rw [hp]; rfl) (by norm_num)
  rw [hp] at this
  exact this

end Verif
