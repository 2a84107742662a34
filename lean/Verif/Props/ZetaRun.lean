import Verif.Props.CharDigits
import Verif.Props.Pipeline
import Verif.Props.Programs

/-!
Properties C65, C68 and C77 together: `zeta_function` and examples/frob.cc from the polynomial to the result.
-/

namespace Verif

open Spec MvPolynomial

variable {p : ℕ} [hprime : Fact p.Prime] {n d : ℕ}

/-- What C65 and C77 say about a run of `zeta_function` that neither aborts nor is still searching.  An object is built for a model
of the polynomial and, if the finite differences handle the model, the exact division fails or the matrix `Φ`
computed is the truncated Frobenius matrix.  In the last case, let `Ψ` be any matrix over the `p`-adic integers that `Φ` approximates to
the digits kept, and let its characteristic polynomial be an integer polynomial `P`.  Then what is returned with `Φ` is
`P` modulo `p^abs` if the program was not to deduce the zeta function, and `P` itself if it was and `P` has the properties of a Frobenius
polynomial. -/
def Spec.ZetaOutcome (p n d : ℕ) [Fact p.Prime] (la' : LinAlg (ZMod p)) (flint : Bool) (f : MonMap Int) (abs : ℤ) (increase better : Bool)
    (run : Res (Option (List ℤ × CMat ℤ))) : Prop :=
  ∃ (a : DefaultArgs) (z : ZetaPrec) (h0 : 0 < z.precision.toNat) (nd : Bool) (g : MonMap (ZMod (p ^ z.precision.toNat)))
    (D : DR (ZMod (p ^ z.precision.toNat))),
    defaultArgs p n d = .ok a ∧ choosePrec p n d abs increase = .ok z ∧ abs ≤ z.precision ∧ ¬ p ∣ d ∧
    NoCommonZero.{0} (fun i => pderiv i (toPoly (n + 1) (reduceCoeffs p f))) ∧
    ModelSpec p (p ^ z.precision.toNat) n d (dvd_pow_self p (by omega)) better f nd g ∧
    Constructed (padicSolver p z.precision.toNat la' flint z.precision.toNat) p g n d D ∧
    (nd = true → ∃ N : ND (ZMod (p ^ z.precision.toNat)), N.toDR = D ∧
      ConstructedND (padicSolver p z.precision.toNat la' flint z.precision.toNat) p g n d N) ∧
    ((∀ N : ND (ZMod (p ^ z.precision.toNat)), nd = true → N.toDR = D →
        ConstructedND (padicSolver p z.precision.toNat la' flint z.precision.toNat) p g n d N →
        FlintBatchOK (p ^ z.precision.toNat) p n d (padicSolver p z.precision.toNat la' flint z.precision.toNat) N) →
      (run = .error .assertFail ∧ DivisionMayFail p n d D.basis z.N) ∨
      ∃ Φ : Matrix (Fin D.basis.length) (Fin D.basis.length) (ZMod (p ^ z.precision.toNat)),
        IsFrobenius (toPoly (n + 1) g) d p D.basis z.N (CMat.ofMatrix Φ).e ∧
        ∀ (Ψ : Matrix (Fin D.basis.length) (Fin D.basis.length) ℤ_[p]) (P : Polynomial ℤ),
          Approximates p n d z.precision.toNat D.basis z.N (Φ.map (fun x => (x.val : ℤ))) Ψ →
          Ψ.charpoly = P.map (Int.castRingHom ℤ_[p]) →
          (z.lift = false → run = .ok (some ((List.range (D.basis.length + 1)).map (fun i => P.coeff i % (p : ℤ) ^ abs.toNat),
            CMat.ofMatrix (Φ.map (fun x => (x.val : ℤ)))))) ∧
          (z.lift = true → P.Monic → P.natDegree = D.basis.length → WeilRoots P p (n - 1) → ∀ ε : ℤ, (ε = 1 ∨ ε = -1) →
            FunctionalEquation P D.basis.length p (n - 1) ε →
            (ε = 1 ∨ (Even (n - 1) ∧ ∃ j, 1 ≤ j ∧ 2 * j ≤ D.basis.length ∧
              ¬ (p : ℤ) ^ (min (a.charpolyPrec.getD j 0)
                (a.charpolyPrec.getD (D.basis.length - j) 0 + halfWeight D.basis.length (n - 1) j)).toNat ∣ P.coeff j)) →
            run = .ok (some ((List.range (D.basis.length + 1)).map P.coeff,
              CMat.ofMatrix (Φ.map (fun x => (x.val : ℤ)))))))

/-- **C65 with C77.**  For every odd prime `p`, every homogeneous integer polynomial, every sequence of random numbers, number of threads and
order of the parallel loop: `zeta_function` aborts for a reason listed in C65, or its random search is still running, or it builds an
object and `ZetaOutcome` holds.  No congruence between the matrix and the polynomial is assumed. -/
theorem C65_digits_partial (hp3 : 3 ≤ p) (la : RankDet (ZMod p)) (hla : RankDetOK la) (rnd : Rnd (ZMod p)) (t : ℕ)
    {la' : LinAlg (ZMod p)} (hla' : LinAlgOK la') (flint pre : Bool) {order : ℕ → List ℕ}
    (ho : ∀ b, (order b).Perm (List.range b)) (f : MonMap Int) (hf : WFPoly (n + 1) f) (hne : f ≠ [])
    (hdeg : ∀ e ∈ f, deg e.1 = d) (abs : ℤ) (habs : TermsFit n abs) (increase better : Bool) (run : Res (Option (List ℤ × CMat ℤ)))
    (hrun : zetaMain p la rnd t (frobRoutine p la' flint pre order) f abs increase better = run) :
    (run = .error .abort ∧ (((n : ℤ), (d : ℤ)) ∉ defaultPairs ∨ choosePrec p n d abs increase = .error .abort ∨
      ¬ NoCommonZero.{0} (fun i => pderiv i (toPoly (n + 1) (reduceCoeffs p f))))) ∨
    (run = .ok none ∧ better = true ∧
      ¬ NoCommonZero.{0} (fun i => X i * pderiv i (toPoly (n + 1) (reduceCoeffs p f)))) ∨
    ZetaOutcome p n d la' flint f abs increase better run := by
  rcases C65_zeta_partial la hla rnd t hla' flint pre ho f hf hne hdeg abs habs increase better run hrun with
    h | h | ⟨a, z, h0, nd, g, D, ha, hz, hap, hpd, hs, hM, hC, hN, hres⟩
  · exact Or.inl h
  · exact Or.inr (Or.inl h)
  refine Or.inr (Or.inr ⟨a, z, h0, nd, g, D, ha, hz, hap, hpd, hs, hM, hC, hN, fun hfl => ?_⟩)
  rcases hres hfl with h | ⟨Φ, hΦ, h1, h2⟩
  · exact Or.inl h
  refine Or.inr ⟨Φ, hΦ, fun Ψ P hAp hP => ?_⟩
  obtain ⟨-, k2⟩ := C77_returned hp3 ha hz hC hAp P hP
  refine ⟨fun hl => ?_, fun hl hmon hdegP hW ε hε hfe hsign => ?_⟩
  · rw [h1 hl]
    simp only [k2 hl]
  · refine h2 hl (hprime.out.odd_of_ne_two (by omega)) P ε hmon hdegP hW hε hfe (fun i i1 i2 => ?_) hsign
    have h := (C77_zeta hp3 ha hz hC hAp).1 hl i i1 i2
    rw [hP, Polynomial.coeff_map, eq_intCast, ← Int.cast_sub, PadicInt.pow_p_dvd_int_iff] at h
    exact (Int.modEq_iff_dvd.2 (by exact_mod_cast h)).symm

/-- What C68 and C77 say about a run of examples/frob.cc in which the random search has ended, `run t'` being the result after `t'` passes of
the loops of `geometric_picard`.  An object is built for the lift of a model `Q` of the polynomial `P` and, if the finite differences handle
the model, the exact division fails or the matrix `Φ` computed is the truncated Frobenius matrix.  In the last case, let `Ψ` be any matrix over
the `p`-adic integers that `Φ` approximates to the digits kept, and let its characteristic polynomial be an integer polynomial `W` with the
properties of a Frobenius polynomial.  Then the program prints the change of variables, the coefficients of `Q`, the matrix `Φ`, the coefficients
of `W` and, for a quartic surface, the geometric Picard number that `W` gives. -/
def Spec.FrobOutcome (p n d : ℕ) [Fact p.Prime] (la' : LinAlg (ZMod p)) (flint : Bool) (L : List IVec)
    (P : MvPolynomial (Fin (n + 1)) (ZMod p)) (K : ℕ) (N absPrec : List ℤ) (nd : Bool)
    (run : ℕ → Res (Option (FrobOutput p (p ^ (K : ℤ).toNat)))) : Prop :=
  ∃ (h0 : 0 < K) (A : Matrix (Fin (n + 1)) (Fin (n + 1)) (ZMod p)) (Q : MvPolynomial (Fin (n + 1)) (ZMod p))
    (g : MonMap (ZMod (p ^ K))) (D : DR (ZMod (p ^ K))),
    ProgModel P nd A Q ∧ ¬ p ∣ d ∧ reduce (dvd_pow_self p (by omega)) (toPoly (n + 1) g) = Q ∧
    (∀ e ∈ g, ∃ c : ℕ, c < p ∧ e.2 = (c : ZMod (p ^ K))) ∧
    Constructed (padicSolver p K la' flint K) p g n d D ∧
    (nd = true → ∃ E : ND (ZMod (p ^ K)), E.toDR = D ∧ ConstructedND (padicSolver p K la' flint K) p g n d E) ∧
    ((∀ E : ND (ZMod (p ^ K)), nd = true → E.toDR = D → ConstructedND (padicSolver p K la' flint K) p g n d E →
        FlintBatchOK (p ^ K) p n d (padicSolver p K la' flint K) E) →
      ((∀ t', run t' = .error .assertFail) ∧ DivisionMayFail p n d D.basis N) ∨
      ∃ Φ : Matrix (Fin D.basis.length) (Fin D.basis.length) (ZMod (p ^ K)),
        IsFrobenius (toPoly (n + 1) g) d p D.basis N (CMat.ofMatrix Φ).e ∧
        ∀ (Ψ : Matrix (Fin D.basis.length) (Fin D.basis.length) ℤ_[p]) (W : Polynomial ℤ),
          Approximates p n d K D.basis N (Φ.map (fun x => (x.val : ℤ))) Ψ →
          Ψ.charpoly = W.map (Int.castRingHom ℤ_[p]) →
          W.Monic → W.natDegree = D.basis.length → WeilRoots W p (n - 1) → ∀ ε : ℤ, (ε = 1 ∨ ε = -1) →
          FunctionalEquation W D.basis.length p (n - 1) ε →
          (ε = 1 ∨ (Even (n - 1) ∧ ∃ j, 1 ≤ j ∧ 2 * j ≤ D.basis.length ∧
            ¬ (p : ℤ) ^ (min (absPrec.getD j 0)
              (absPrec.getD (D.basis.length - j) 0 + halfWeight D.basis.length (n - 1) j)).toNat ∣ W.coeff j)) →
          ∃ (M : CMat (ZMod p)) (T : ℕ), M.rows = n + 1 ∧ M.cols = n + 1 ∧ toMat M (n + 1) (n + 1) = A ∧ ∀ t', T ≤ t' →
            run t' = .ok (some ⟨M, L.map (fun u => coeff (expo (n + 1) u) Q), CMat.ofMatrix Φ,
              (List.range (D.basis.length + 1)).map W.coeff,
              if n = 3 ∧ d = 4 then (unitRoots W p : ℤ) + 1 else 0⟩))

/-- **C68 with C77.**  For every odd prime `p` and every smooth polynomial given by its vector of coefficients, examples/frob.cc with the
precisions of `default_args`: the random search is still running, or `FrobOutcome` holds.  No congruence between the matrix and the
polynomial is assumed.  Cases: `C78_curve_partial` and `C78_surface_partial`. -/
theorem C68_digits_partial (hp3 : 3 ≤ p) (la : RankDet (ZMod p)) (hla : RankDetOK la) (rnd : Rnd (ZMod p)) (t : ℕ)
    {la' : LinAlg (ZMod p)} (hla' : LinAlgOK la') (flint pre : Bool) {order : ℕ → List ℕ}
    (ho : ∀ b, (order b).Perm (List.range b)) {cmp : ℕ → ℕ → Bool} (hcmp : CmpOK cmp)
    {factor : Polynomial ℤ → List (Polynomial ℤ × ℕ)} (hfac : FactorOK factor) (tries : ℤ) {a : DefaultArgs}
    (ha : defaultArgs p n d = .ok a) {L : List IVec} (hL : IsTable n d L) (f : List ℤ) (hlen : f.length = L.length)
    (P : MvPolynomial (Fin (n + 1)) (ZMod p)) (hP : P = toPoly (n + 1) (L.zip (f.map (fun c : ℤ => (c : ZMod p)))))
    (hs : NoCommonZero.{0} (fun i => pderiv i P)) :
    ((∀ t', frobProgram p la rnd t t' (frobRoutine p la' flint pre order) cmp factor tries a.precision.toNat n d f a.N a.charpolyPrec =
        .ok none) ∧ ¬ NoCommonZero.{0} (fun i => X i * pderiv i P)) ∨
    ∃ nd, FrobOutcome p n d la' flint L P a.precision.toNat a.N a.charpolyPrec nd (fun t' =>
      frobProgram p la rnd t t' (frobRoutine p la' flint pre order) cmp factor tries a.precision.toNat n d f a.N a.charpolyPrec) := by
  obtain ⟨c1, c2, c3, b, c4, c5, c6, c7, c8⟩ := C12_default_args_partial p hp3 n d a ha
  obtain ⟨-, hsize⟩ := size_default ha
  obtain ⟨k1, k2, k3, k4⟩ := pairs_bounds (defaultPairs_mem ha)
  rcases C68_frob_partial la hla rnd t hla' flint pre ho hcmp hfac tries (K := a.precision.toNat) (by omega) (by omega)
    (by omega) k3 k4 hsize hL f
    a.N a.charpolyPrec hlen (by exact_mod_cast c2) (fun x hx => termsFit_three k2 (default_terms ha x hx)) P hP hs with
    h | ⟨nd, A, Q, g, D, h1, h2, h3, h4, hC, h5, h6⟩
  · exact Or.inl h
  refine Or.inr ⟨nd, by omega, A, Q, g, D, h1, h2, h3, h4, hC, h5, fun hfl => ?_⟩
  rcases h6 hfl with h | ⟨Φ, hΦ, -, h7⟩
  · exact Or.inl h
  refine Or.inr ⟨Φ, hΦ, fun Ψ W hAp hW hmon hdeg hroots ε hε hfe hsign => ?_⟩
  have hb : D.basis.length + 1 = a.charpolyPrec.length := C40_basis_assertion hprime.out hC ha
  obtain rfl : D.basis.length = b := by omega
  refine h7 hb.symm (fun x hx => by have := c7 x hx; omega) ?_ (hprime.out.odd_of_ne_two (by omega)) W ε hmon hdeg hroots hε hfe
    (fun i i1 i2 => ?_) hsign
  · rwa [show ((n : ℤ) - 1).toNat = n - 1 by omega] at c8
  · have h := C77_default_args hp3 ha hC hAp i i1 i2
    rw [hW, Polynomial.coeff_map, eq_intCast, ← Int.cast_sub, PadicInt.pow_p_dvd_int_iff] at h
    exact (Int.modEq_iff_dvd.2 (by exact_mod_cast h)).symm

/-- `C65_digits_partial` for the curves `x^3 + y^2 z + z^3` and every prime from 17 on: the run ends as in `ZetaOutcome`. -/
example (hp : 17 ≤ p) (la : RankDet (ZMod p)) (hla : RankDetOK la) (rnd : Rnd (ZMod p)) (t : ℕ)
    {la' : LinAlg (ZMod p)} (hla' : LinAlgOK la') (flint pre : Bool) {order : ℕ → List ℕ}
    (ho : ∀ b, (order b).Perm (List.range b)) (increase : Bool) :
    ZetaOutcome p 2 3 la' flint exWeier 0 increase false
      (zetaMain p la rnd t (frobRoutine p la' flint pre order) exWeier 0 increase false) := by
  rcases C65_digits_partial (by omega) la hla rnd t hla' flint pre ho exWeier exWeier_wf.1 exWeier_wf.2.1 exWeier_wf.2.2 0
    (termsFit_three (by norm_num) (by norm_num)) increase false _ rfl with ⟨-, h | h | h⟩ | ⟨-, h, -⟩ | h
  · exact absurd (by decide) h
  · rw [C40_precision_default _ _ _ _ _ (by norm_num), show ((2 : ℕ) : ℤ) = 2 from rfl, show ((3 : ℕ) : ℤ) = 3 from rfl, da_2_3,
      if_neg (by omega), if_neg (by omega), if_pos (by omega)] at h
    cases h
  · exact absurd (exWeier_smooth (by omega)) h
  · cases h
  · exact h

end Verif
