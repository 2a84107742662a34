import Verif.Props.Pipeline
import Verif.Props.Picard
import Verif.Props.ProgramText

/-!
Property C68, second part: what `examples/frob.cc` computes.
-/

namespace Verif

open Spec MvPolynomial

/-- The model used: `A` is the matrix printed, `P` the polynomial read and `Q` the one the object is built for.  Either `A` has
determinant 1 and `Q = P(Ax)` is non-degenerate, or `A` is zero, `Q = P`, and `P` is degenerate.  A non-degenerate `P` is kept. -/
structure Spec.ProgModel {p n : ℕ} [Fact p.Prime] (P : MvPolynomial (Fin (n + 1)) (ZMod p)) (nd : Bool)
    (A : Matrix (Fin (n + 1)) (Fin (n + 1)) (ZMod p)) (Q : MvPolynomial (Fin (n + 1)) (ZMod p)) : Prop where
  nondeg : nd = true → A.det = 1 ∧ Q = linSubst (fun i j => A i j) P ∧ NoCommonZero.{0} (fun i => X i * pderiv i Q)
  degen : nd = false → A = 0 ∧ Q = P ∧ ¬ NoCommonZero.{0} (fun i => X i * pderiv i P)
  kept : NoCommonZero.{0} (fun i => X i * pderiv i P) → nd = true ∧ A = 1 ∧ Q = P

section

variable {p : ℕ} [hprime : Fact p.Prime] {q n d : ℕ}

/-- The search and the change of variables (examples/frob.cc:183-198). -/
theorem search_result [NeZero q] (hpq : p ∣ q) (la : RankDet (ZMod p)) (hla : RankDetOK la) {f : MonMap (ZMod p)}
    (hf : WFPoly (n + 1) f) (hne : f ≠ []) (hdeg : ∀ e ∈ f, deg e.1 = d) (hd : 1 ≤ d)
    (hsize : ∀ l ≤ (n + 1) * d, (l + n).choose n < 2 ^ 63) (rnd : Rnd (ZMod p)) (t : ℕ) (N : ℤ) :
    (findChangeOfVariables la q rnd t f N = .ok none ∧
      ¬ NoCommonZero.{0} (fun i => X i * pderiv i (toPoly (n + 1) f))) ∨
    ∃ M tries g, findChangeOfVariables la q rnd t f N = .ok (some (M, tries)) ∧ M.rows = n + 1 ∧ M.cols = n + 1 ∧
      (if (!isZeroMat M) = true then changeOfVariables f M else .ok f) = .ok g ∧ WFPoly (n + 1) g ∧ g ≠ [] ∧
      (∀ e ∈ g, deg e.1 = d) ∧
      ProgModel (toPoly (n + 1) f) (!isZeroMat M) (toMat M (n + 1) (n + 1)) (toPoly (n + 1) g) := by
  have hP := toPoly_isHomogeneous f hf.1 hdeg
  have hhom : ∀ i : Fin (n + 1), (X i * pderiv i (toPoly (n + 1) f)).IsHomogeneous d := fun i => by
    have := (isHomogeneous_X (ZMod p) i).mul (hP.pderiv (i := i))
    rwa [show 1 + (d - 1) = d by omega] at this
  have hiff := noCommonZero_iff (l := (d - 1) * (n + 1) + 1) hhom hd (by omega)
  rcases C38_find_change_of_variables.{0} hpq la hla f hf hne hdeg hd hsize rnd t N with h | ⟨M, tries, h, -, hr, hc, h3⟩
  · left
    refine ⟨h, fun hz => ?_⟩
    obtain ⟨b, eb, hb⟩ := isND_ok hpq hla hf hne hdeg hd hsize
    obtain rfl := hb.2 (hiff.2 hz)
    cases f with
    | nil => exact hne rfl
    | cons e f =>
      obtain ⟨k, c⟩ := e
      simp only [findChangeOfVariables, eb, Res.bind_ok] at h
      cases hN : N.toNat <;> rw [hN] at h <;> cases h
  · right
    obtain ⟨g', eg, hg, hpoly⟩ := changeOfVariables_ok (by omega) f hf M hr hc
    obtain ⟨hgd, hgne⟩ := changeOfVariables_KD (by omega) hf hne hdeg hr eg
    have hpoly' : toPoly (n + 1) g' = linSubst (fun i j => toMat M (n + 1) (n + 1) i j) (toPoly (n + 1) f) := hpoly
    have hnz : (toMat M (n + 1) (n + 1)).det = 1 → isZeroMat M = false := by
      intro hdet
      cases hz : isZeroMat M with
      | false => rfl
      | true =>
        rw [isZeroMat_iff M hr hc] at hz
        rw [hz, Matrix.det_zero] at hdet
        exact absurd hdet.symm one_ne_zero
    rcases h3 with ⟨h4, -, h5⟩ | ⟨h4, -, h5⟩ | ⟨h4, -, h5, -, h6⟩
    · have hdet : (toMat M (n + 1) (n + 1)).det = 1 := by rw [h5, Matrix.det_one]
      refine ⟨M, tries, g', h, hr, hc, ?_, hg, hgne, hgd, ?_⟩
      · rw [hnz hdet]; exact eg
      · rw [hnz hdet]
        refine ⟨fun _ => ⟨hdet, hpoly', ?_⟩, fun h => (by cases h), fun _ => ⟨rfl, h5, by rw [hpoly', h5, linSubst_id]⟩⟩
        rw [hpoly', h5, linSubst_id]
        exact hiff.1 h4
    · have hz := (isZeroMat_iff M hr hc).2 h5
      refine ⟨M, tries, f, h, hr, hc, ?_, hf, hne, hdeg, ?_⟩
      · rw [hz]; rfl
      · rw [hz]
        exact ⟨fun h => (by cases h), fun _ => ⟨h5, rfl, fun hz => h4 (hiff.2 hz)⟩,
          fun hz => absurd (hiff.2 hz) h4⟩
    · refine ⟨M, tries, g', h, hr, hc, ?_, hg, hgne, hgd, ?_⟩
      · rw [hnz h5]; exact eg
      · rw [hnz h5]
        refine ⟨fun _ => ⟨h5, hpoly', ?_⟩, fun h => (by cases h), fun hz => absurd (hiff.2 hz) h4⟩
        rw [hpoly']
        exact h6

/-- The rank is positive. -/
theorem basis_pos {R : Type} [CommRing R] [Nontrivial R] {solve : Solver R} {p' : ℕ} {g : MonMap R} {D : DR R}
    (hC : Constructed solve p' g n d D) (hn : 1 ≤ n) (hd : 3 ≤ d) : 0 < D.basis.length := by
  have h3 := C45_rank hC
  by_contra h4
  have h5 : D.basis.length = 0 := by omega
  rw [h5] at h3
  have hd2 : (2 : ℤ) ≤ (d : ℤ) - 1 := by omega
  generalize (d : ℤ) - 1 = x at h3 hd2
  have hx : x ^ 2 ≤ x ^ (n + 1) := pow_le_pow_right₀ (by omega) (by omega)
  have hx2 : x < x ^ 2 := by nlinarith
  rcases neg_one_pow_eq_or ℤ (n + 1) with h | h <;> rw [h] at h3 <;> push_cast at h3 <;> linarith

/-! ### The program -/

section

variable (la : RankDet (ZMod p)) (hla : RankDetOK la) (rnd : Rnd (ZMod p)) (t : ℕ) (frob : FrobRoutine p)
  (cmp : ℕ → ℕ → Bool) (factor : Polynomial ℤ → List (Polynomial ℤ × ℕ)) (tries : ℤ)

/-- The program after the assertion about the length of the vector. -/
theorem frobProgram_eq (t' K : ℕ) (hsize : (d + n).choose n < 2 ^ 63) {L : List IVec} (hL : IsTable n d L) (f N absPrec : List ℤ)
    (hlen : f.length = L.length) :
    frobProgram p la rnd t t' frob cmp factor tries K n d f N absPrec = (do
      let original := originalMap L (f.map (fun c : ℤ => (c : ZMod p)))
      let smooth ← isSmooth la (p ^ K) original
      if smooth then do
        match ← findChangeOfVariables la (p ^ K) rnd t original tries with
        | none => .ok none
        | some (M, _) => do
            let nd := !isZeroMat M
            let g ← (if nd then changeOfVariables original M else .ok original : Res (MonMap (ZMod p)))
            let F ← frob K nd (naiveLift (p ^ K) g) N
            check (decide (F.1 + 1 = absPrec.length))
            let fv ← vectorOf L.length (buildDict L) g
            let cp ← charpolyFrob (repMat F.2) absPrec p (n - 1)
            if (n : ℤ) = 3 ∧ (d : ℤ) = 4 then do
              match ← geometricPicard cmp factor cp p ((n : ℤ) - 1) t' with
              | none => .ok none
              | some rank => .ok (some ⟨M, fv, F.2, cp, rank⟩)
            else .ok (some ⟨M, fv, F.2, cp, 0⟩)
      else .error .abort) := by
  have hLc : L = comps n d := hL.eq (comps_isTable n d)
  have hv : (f.map (fun c : ℤ => (c : ZMod p))).length = L.length := by rw [List.length_map, hlen]
  rw [frobProgram, if_neg (by omega)]
  simp only [Int.toNat_natCast]
  rw [tupleListGenerator_eq d n hsize, Res.bind_ok, ← hLc, decide_eq_true hv.symm, check_true, Res.bind_ok]
  simp only [hv, show ((n : ℤ) - 1).toNat = n - 1 by omega]
  rfl

/-- **C68 (length).**  A vector of another length than the number of monomials of degree `d` fails the assertion. -/
theorem C68_length (t' : ℕ) (K : ℤ) (hsize : (d + n).choose n < 2 ^ 63) (f N absPrec : List ℤ)
    (hlen : f.length ≠ (d + n).choose n) :
    frobProgram p la rnd t t' frob cmp factor tries K n d f N absPrec = .error .assertFail := by
  rw [frobProgram, if_neg (by omega)]
  simp only [Int.toNat_natCast]
  rw [tupleListGenerator_eq d n hsize, Res.bind_ok, decide_eq_false, check_false]
  · rfl
  · rw [comps_length, List.length_map]; exact fun h => hlen h.symm

/-- **C68 (zero polynomial; the code is wrong).**  When all coefficients are divisible by `p` the first key of an empty map is
read: the test of smoothness, which should have rejected the polynomial, is undefined behaviour. -/
theorem C68_zero_wrong (t' K : ℕ) (hsize : (d + n).choose n < 2 ^ 63) {L : List IVec} (hL : IsTable n d L)
    (f N absPrec : List ℤ) (hlen : f.length = L.length) (hz : ∀ c ∈ f, (p : ℤ) ∣ c) :
    frobProgram p la rnd t t' frob cmp factor tries K n d f N absPrec = .error .ub := by
  have hnil : originalMap L (f.map (fun c : ℤ => (c : ZMod p))) = [] := by
    have : (L.zip (f.map (fun c : ℤ => (c : ZMod p)))).filter (fun e => decide (e.2 ≠ 0)) = [] := by
      rw [List.filter_eq_nil_iff]
      intro e he
      obtain ⟨c, hc, h⟩ := List.mem_map.1 (List.of_mem_zip he).2
      have := (ZMod.intCast_zmod_eq_zero_iff_dvd c p).2 (hz c hc)
      simp [← h, this]
    rw [originalMap, this]
    rfl
  rw [frobProgram_eq la rnd t frob cmp factor tries t' K hsize hL f N absPrec hlen]
  simp only [hnil]
  rfl

/-- **C68 (singular).**  When the partial derivatives have a common zero modulo `p` the program stops with a message. -/
theorem C68_singular (hla : RankDetOK la) (t' : ℕ) {K : ℕ} (hK : 1 ≤ K) (hd : 2 ≤ d)
    (hsize : ∀ l ≤ (n + 1) * d, (l + n).choose n < 2 ^ 63)
    {L : List IVec} (hL : IsTable n d L) (f N absPrec : List ℤ) (hlen : f.length = L.length)
    (h0 : toPoly (n + 1) (L.zip (f.map (fun c : ℤ => (c : ZMod p)))) ≠ 0)
    (hs : ¬ NoCommonZero.{0} (fun i => pderiv i (toPoly (n + 1) (L.zip (f.map (fun c : ℤ => (c : ZMod p))))))) :
    frobProgram p la rnd t t' frob cmp factor tries K n d f N absPrec = .error .abort := by
  have : NeZero (p ^ K) := ⟨pow_ne_zero _ hprime.out.ne_zero⟩
  obtain ⟨h1, h2, h3, h4⟩ := originalMap_ok hL (f.map (fun c : ℤ => (c : ZMod p))) (by rw [List.length_map, hlen])
  obtain ⟨b, e, hb⟩ := (C60_tests (q := p ^ K) (dvd_pow_self p (by omega)) la hla _ h1 (fun h => h0 (h4.1 h)) h2 hd hsize).1
  rw [frobProgram_eq la rnd t frob cmp factor tries t' K (hsize d (by nlinarith)) hL f N absPrec hlen]
  simp only [e, Res.bind_ok]
  rw [h3] at hb
  cases b with
  | false => rfl
  | true => exact absurd (hb.1 rfl) hs

end

/-- **C68.**  `examples/frob.cc` on a smooth polynomial with `1 <= n < d`, `n < 2p`, `d >= 3`, given by its vector of coefficients;
numbers of terms for which the coefficients fit (C32); for every sequence of random numbers, bound on the number of tries, number of threads and order of the
parallel loop.  Either the random search is still running; or an object is built for the lift, with coefficients `0 .. p-1`, of
a polynomial `Q` described by `ProgModel`; and then, if the finite differences handle `Q`: the exact division fails, or the
matrix `Φ` computed is the Frobenius matrix, and
* if `absolute_precision` does not have one entry more than the basis the assertion fails;
* otherwise, if the characteristic polynomial of `Φ` agrees to the precisions given with a polynomial `W` with the properties of
the Frobenius polynomial, and these precisions suffice, the program prints the matrix of the change of variables, the coefficients of
`Q` in the order of the monomials, `Φ`, the coefficients of `W`, and the geometric Picard number that `W` gives. -/
theorem C68_frob_partial (la : RankDet (ZMod p)) (hla : RankDetOK la) (rnd : Rnd (ZMod p)) (t : ℕ)
    {la' : LinAlg (ZMod p)} (hla' : LinAlgOK la') (flint pre : Bool) {order : ℕ → List ℕ}
    (ho : ∀ b, (order b).Perm (List.range b)) {cmp : ℕ → ℕ → Bool} (hcmp : CmpOK cmp)
    {factor : Polynomial ℤ → List (Polynomial ℤ × ℕ)} (hfac : FactorOK factor) (tries : ℤ) {K : ℕ} (hK : 1 ≤ K)
    (hn : 1 ≤ n) (hn2 : n < 2 * p) (hd : 3 ≤ d) (hnd : n < d) (hsize : ∀ l ≤ (n + 1) * d, (l + n).choose n < 2 ^ 63)
    {L : List IVec} (hL : IsTable n d L) (f N absPrec : List ℤ) (hlen : f.length = L.length) (hNlen : N.length = n)
    (hN : ∀ x ∈ N, TermsFit n x) (P : MvPolynomial (Fin (n + 1)) (ZMod p))
    (hP : P = toPoly (n + 1) (L.zip (f.map (fun c : ℤ => (c : ZMod p)))))
    (hs : NoCommonZero.{0} (fun i => pderiv i P)) :
    ((∀ t', frobProgram p la rnd t t' (frobRoutine p la' flint pre order) cmp factor tries K n d f N absPrec = .ok none) ∧
      ¬ NoCommonZero.{0} (fun i => X i * pderiv i P)) ∨
    ∃ (nd : Bool) (A : Matrix (Fin (n + 1)) (Fin (n + 1)) (ZMod p)) (Q : MvPolynomial (Fin (n + 1)) (ZMod p))
      (g : MonMap (ZMod (p ^ K))) (D : DR (ZMod (p ^ K))),
      ProgModel P nd A Q ∧ ¬ p ∣ d ∧ reduce (dvd_pow_self p (by omega)) (toPoly (n + 1) g) = Q ∧
      (∀ e ∈ g, ∃ c : ℕ, c < p ∧ e.2 = (c : ZMod (p ^ K))) ∧
      Constructed (padicSolver p K la' flint K) p g n d D ∧
      (nd = true → ∃ E : ND (ZMod (p ^ K)), E.toDR = D ∧ ConstructedND (padicSolver p K la' flint K) p g n d E) ∧
      ((∀ E : ND (ZMod (p ^ K)), nd = true → E.toDR = D → ConstructedND (padicSolver p K la' flint K) p g n d E →
          FlintBatchOK (p ^ K) p n d (padicSolver p K la' flint K) E) →
        ((∀ t', frobProgram p la rnd t t' (frobRoutine p la' flint pre order) cmp factor tries K n d f N absPrec =
            .error .assertFail) ∧ DivisionMayFail p n d D.basis N) ∨
        ∃ Φ : Matrix (Fin D.basis.length) (Fin D.basis.length) (ZMod (p ^ K)),
          IsFrobenius (toPoly (n + 1) g) d p D.basis N (CMat.ofMatrix Φ).e ∧
          (absPrec.length ≠ D.basis.length + 1 → ∀ t', frobProgram p la rnd t t' (frobRoutine p la' flint pre order) cmp factor
            tries K n d f N absPrec = .error .assertFail) ∧
          (absPrec.length = D.basis.length + 1 → (∀ x ∈ absPrec, 0 ≤ x) →
            EnoughPrec D.basis.length p (n - 1) (fun i => absPrec.getD i 0) → Odd p →
            ∀ (W : Polynomial ℤ) (ε : ℤ), W.Monic → W.natDegree = D.basis.length → WeilRoots W p (n - 1) → (ε = 1 ∨ ε = -1) →
            FunctionalEquation W D.basis.length p (n - 1) ε →
            (∀ i, 1 ≤ i → i < D.basis.length → (Φ.map (fun x => (x.val : ℤ))).charpoly.coeff i ≡ W.coeff i
              [ZMOD (p : ℤ) ^ (absPrec.getD i 0).toNat]) →
            (ε = 1 ∨ (Even (n - 1) ∧ ∃ j, 1 ≤ j ∧ 2 * j ≤ D.basis.length ∧
              ¬ (p : ℤ) ^ (min (absPrec.getD j 0)
                (absPrec.getD (D.basis.length - j) 0 + halfWeight D.basis.length (n - 1) j)).toNat ∣ W.coeff j)) →
            ∃ (M : CMat (ZMod p)) (T : ℕ), M.rows = n + 1 ∧ M.cols = n + 1 ∧ toMat M (n + 1) (n + 1) = A ∧ ∀ t', T ≤ t' →
              frobProgram p la rnd t t' (frobRoutine p la' flint pre order) cmp factor tries K n d f N absPrec =
                .ok (some ⟨M, L.map (fun u => coeff (expo (n + 1) u) Q), CMat.ofMatrix Φ,
                  (List.range (D.basis.length + 1)).map W.coeff,
                  if n = 3 ∧ d = 4 then (unitRoots W p : ℤ) + 1 else 0⟩))) := by
  have hp : p.Prime := hprime.out
  have hNZ : NeZero (p ^ K) := ⟨pow_ne_zero _ hp.ne_zero⟩
  have hnt := nontrivial_pow (p := p) hK
  have hdvd : p ∣ p ^ K := dvd_pow_self p (by omega)
  have hrun := fun t' => frobProgram_eq la rnd t (frobRoutine p la' flint pre order) cmp factor tries t' K
    (hsize d (by nlinarith)) hL f N absPrec hlen
  obtain ⟨h1, h2, h3, h4⟩ := originalMap_ok hL (f.map (fun c : ℤ => (c : ZMod p))) (by rw [List.length_map, hlen])
  rw [← hP] at h3 h4
  obtain ⟨o, ho'⟩ : ∃ o, o = originalMap L (f.map (fun c : ℤ => (c : ZMod p))) := ⟨_, rfl⟩
  rw [← ho'] at h1 h2 h3 h4 hrun
  have hP0 : P ≠ 0 := by
    rintro rfl
    have := hs (ZMod p) (fun _ => 1) (fun i => by beta_reduce; rw [map_zero, map_zero])
    exact one_ne_zero (congrFun this 0)
  have hne : o ≠ [] := fun h => hP0 (h4.1 h)
  obtain ⟨b, e, hb⟩ := (C60_tests (q := p ^ K) hdvd la hla o h1 hne h2 (by omega) hsize).1
  rw [h3] at hb
  obtain rfl := hb.2 hs
  simp only [e, Res.bind_ok, if_true] at hrun
  have hhom : P.IsHomogeneous d := by rw [← h3]; exact toPoly_isHomogeneous o h1.1 h2
  have hpd : ¬ p ∣ d := fun h => not_smooth hd ((ZMod.natCast_eq_zero_iff d p).2 h) hhom hs
  rcases search_result (q := p ^ K) hdvd la hla h1 hne h2 (by omega) hsize rnd t tries with
    ⟨h5, h6⟩ | ⟨M, tr, g0, h5, hr, hc, hg1, hg2, hg3, hg4, hg5⟩
  · left
    rw [h3] at h6
    exact ⟨fun t' => by rw [hrun, h5]; rfl, h6⟩
  right
  rw [h3] at hg5
  simp only [h5, Res.bind_ok, hg1, naiveLift_eq hg2] at hrun
  obtain ⟨g, hg⟩ : ∃ g, g = repMap (p ^ K) g0 := ⟨_, rfl⟩
  rw [← hg] at hrun
  have w1 : WFPoly (n + 1) g := hg ▸ repMap_wf hg2
  have w2 : g ≠ [] := hg ▸ repMap_ne hg3
  have w3 : ∀ e ∈ g, deg e.1 = d := hg ▸ repMap_deg hg4
  have w4 : reduce hdvd (toPoly (n + 1) g) = toPoly (n + 1) g0 := by rw [hg]; exact reduce_repMap hdvd g0
  have w5 : ∀ e ∈ g, ∃ c : ℕ, c < p ∧ e.2 = (c : ZMod (p ^ K)) := by
    rw [hg]
    intro e he
    obtain ⟨x, -, rfl⟩ := List.mem_map.1 he
    exact ⟨x.2.val, ZMod.val_lt _, rfl⟩
  -- the part after the Frobenius matrix
  have htail : ∀ (D : DR (ZMod (p ^ K))), Constructed (padicSolver p K la' flint K) p g n d D →
      ((frobRoutine p la' flint pre order K (!isZeroMat M) g N = .error .assertFail ∧ DivisionMayFail p n d D.basis N) ∨
       ∃ Φ : Matrix (Fin D.basis.length) (Fin D.basis.length) (ZMod (p ^ K)),
        frobRoutine p la' flint pre order K (!isZeroMat M) g N = .ok (D.basis.length, CMat.ofMatrix Φ) ∧
        IsFrobenius (toPoly (n + 1) g) d p D.basis N (CMat.ofMatrix Φ).e) →
      ((∀ t', frobProgram p la rnd t t' (frobRoutine p la' flint pre order) cmp factor tries K n d f N absPrec =
            .error .assertFail) ∧ DivisionMayFail p n d D.basis N) ∨
        ∃ Φ : Matrix (Fin D.basis.length) (Fin D.basis.length) (ZMod (p ^ K)),
          IsFrobenius (toPoly (n + 1) g) d p D.basis N (CMat.ofMatrix Φ).e ∧
          (absPrec.length ≠ D.basis.length + 1 → ∀ t', frobProgram p la rnd t t' (frobRoutine p la' flint pre order) cmp factor
            tries K n d f N absPrec = .error .assertFail) ∧
          (absPrec.length = D.basis.length + 1 → (∀ x ∈ absPrec, 0 ≤ x) →
            EnoughPrec D.basis.length p (n - 1) (fun i => absPrec.getD i 0) → Odd p →
            ∀ (W : Polynomial ℤ) (ε : ℤ), W.Monic → W.natDegree = D.basis.length → WeilRoots W p (n - 1) → (ε = 1 ∨ ε = -1) →
            FunctionalEquation W D.basis.length p (n - 1) ε →
            (∀ i, 1 ≤ i → i < D.basis.length → (Φ.map (fun x => (x.val : ℤ))).charpoly.coeff i ≡ W.coeff i
              [ZMOD (p : ℤ) ^ (absPrec.getD i 0).toNat]) →
            (ε = 1 ∨ (Even (n - 1) ∧ ∃ j, 1 ≤ j ∧ 2 * j ≤ D.basis.length ∧
              ¬ (p : ℤ) ^ (min (absPrec.getD j 0)
                (absPrec.getD (D.basis.length - j) 0 + halfWeight D.basis.length (n - 1) j)).toNat ∣ W.coeff j)) →
            ∃ (M' : CMat (ZMod p)) (T : ℕ), M'.rows = n + 1 ∧ M'.cols = n + 1 ∧
              toMat M' (n + 1) (n + 1) = toMat M (n + 1) (n + 1) ∧ ∀ t', T ≤ t' →
              frobProgram p la rnd t t' (frobRoutine p la' flint pre order) cmp factor tries K n d f N absPrec =
                .ok (some ⟨M', L.map (fun u => coeff (expo (n + 1) u) (toPoly (n + 1) g0)), CMat.ofMatrix Φ,
                  (List.range (D.basis.length + 1)).map W.coeff,
                  if n = 3 ∧ d = 4 then (unitRoots W p : ℤ) + 1 else 0⟩)) := by
    rintro D hC (⟨hbr, hdiv⟩ | ⟨Φ, hbr, hΦ⟩)
    · left
      exact ⟨fun t' => by rw [hrun, hbr]; rfl, hdiv⟩
    right
    refine ⟨Φ, hΦ, fun hab t' => ?_, fun hab hpos hen hodd W ε hmon hdegW hW hε hfe hA hsign => ?_⟩
    · rw [hrun, hbr, Res.bind_ok]
      simp only
      rw [decide_eq_false (fun h => hab h.symm), check_false]
      rfl
    have hb0 := basis_pos hC hn hd
    have hrep : repMat (CMat.ofMatrix Φ) = CMat.ofMatrix (Φ.map (fun x => (x.val : ℤ))) := by
      simp only [repMat, CMat.ofMatrix, CMat.mk.injEq, true_and]
      funext i j
      split_ifs <;> simp
    have hcp := C14_charpoly_frob hb0 (Φ.map (fun x => (x.val : ℤ))) W hmon hdegW p (n - 1) hodd hW ε hε hfe absPrec hab hpos hA
      hen hsign
    simp only [hbr, Res.bind_ok, hrep, hcp, vectorOf_ok hL hg2 hg4, decide_eq_true hab.symm, check_true] at hrun
    by_cases h34 : n = 3 ∧ d = 4
    · have hpoly : polyOf ((List.range (D.basis.length + 1)).map W.coeff) = W := by
        ext i
        rw [polyOf_coeff]
        by_cases hi : i < D.basis.length + 1
        · rw [getD_getElem _ _ _ (by simpa using hi), List.getElem_map, List.getElem_range]
        · rw [List.getD_eq_getElem?_getD, List.getElem?_eq_none (by simpa using hi), Option.getD_none,
            Polynomial.coeff_eq_zero_of_natDegree_lt (by omega)]
      have hlast : ((List.range (D.basis.length + 1)).map W.coeff).getD
          (((List.range (D.basis.length + 1)).map W.coeff).length - 1) 0 ≠ 0 := by
        rw [← polyOf_coeff, hpoly, List.length_map, List.length_range, Nat.add_sub_cancel, ← hdegW]
        rw [Polynomial.coeff_natDegree, hmon.leadingCoeff]
        exact one_ne_zero
      obtain ⟨T, hT⟩ := C43_geometric_picard hcmp hfac _ hlast p hp.pos ((n : ℤ) - 1) (by
        intro _ z hz
        rw [hpoly] at hz
        rw [Polynomial.mem_roots'] at hz
        have hz2 : Polynomial.aeval z W = 0 := by
          have := hz.2
          rwa [Polynomial.IsRoot.def, Polynomial.eval_map, ← algebraMap_int_eq, ← Polynomial.aeval_def] at this
        have := hW z hz2
        rw [h34.1] at this
        have h0 : (0 : ℝ) ≤ p := by positivity
        exact (sq_eq_sq₀ (norm_nonneg z) h0).1 this)
      refine ⟨M, T, hr, hc, rfl, fun t' ht' => ?_⟩
      rw [hrun, if_pos (by omega), hT t' ht', Res.bind_ok, hpoly, if_pos h34, if_pos (by rw [h34.1]; norm_num)]
    · refine ⟨M, 0, hr, hc, rfl, fun t' _ => ?_⟩
      rw [hrun, if_neg (by omega), if_neg h34]
  cases hz : isZeroMat M with
  | true =>
    rw [hz] at hg5 htail
    obtain ⟨hA0, hQ, hdeg0⟩ := hg5.degen rfl
    have hsm : SmoothMod hdvd (toPoly (n + 1) g) := by
      rw [SmoothMod, w4, hQ]
      exact hs
    obtain ⟨D, hC, hbr⟩ := C65_branch_J hK hdvd hla' flint pre ho hn hn2 hnd w1 w2 w3 hsize hpd hsm hNlen
      hN
    exact ⟨false, _, toPoly (n + 1) g0, g, D, hg5, hpd, w4, w5, hC, fun h => (by cases h), fun _ => htail D hC hbr⟩
  | false =>
    rw [hz] at hg5 htail
    have hndm : NondegMod hdvd (toPoly (n + 1) g) := by
      rw [NondegMod, w4]
      exact (hg5.nondeg rfl).2.2
    obtain ⟨D, hC, hbr⟩ := C65_branch_ND_partial hK hdvd hla' flint pre ho hn hnd w1 w2 w3 hsize hpd hndm hNlen
      hN
    have hCb := C45_base_ND hC
    exact ⟨true, _, toPoly (n + 1) g0, g, D.toDR, hg5, hpd, w4, w5, hCb, fun _ => ⟨D, rfl, hC⟩,
      fun hfl => htail D.toDR hCb (hbr (hfl D rfl rfl hC))⟩

/-- **C68 (representatives).**  The program depends on the coefficients modulo `p` only; so the output file, in which they are
reduced modulo `p`, is an input file with the same result (`C68_output`). -/
theorem C68_representatives (la : RankDet (ZMod p)) (rnd : Rnd (ZMod p)) (t t' : ℕ) (frob : FrobRoutine p)
    (cmp : ℕ → ℕ → Bool) (factor : Polynomial ℤ → List (Polynomial ℤ × ℕ)) (tries K n d : ℤ) (f N absPrec : List ℤ) :
    frobProgram p la rnd t t' frob cmp factor tries K n d (f.map (fun c : ℤ => c % p)) N absPrec =
      frobProgram p la rnd t t' frob cmp factor tries K n d f N absPrec := by
  have : (f.map (fun c : ℤ => c % p)).map (fun c : ℤ => (c : ZMod p)) = f.map (fun c : ℤ => (c : ZMod p)) := by
    rw [List.map_map]
    refine List.map_congr_left (fun c _ => ?_)
    simp
  rw [frobProgram, frobProgram, this]

/-! ### Examples -/

/-- The monomials of degree 4 in four variables. -/
def quartics : List IVec :=
  [[0, 0, 0, 4], [0, 0, 1, 3], [0, 0, 2, 2], [0, 0, 3, 1], [0, 0, 4, 0], [0, 1, 0, 3], [0, 1, 1, 2], [0, 1, 2, 1],
   [0, 1, 3, 0], [0, 2, 0, 2], [0, 2, 1, 1], [0, 2, 2, 0], [0, 3, 0, 1], [0, 3, 1, 0], [0, 4, 0, 0], [1, 0, 0, 3],
   [1, 0, 1, 2], [1, 0, 2, 1], [1, 0, 3, 0], [1, 1, 0, 2], [1, 1, 1, 1], [1, 1, 2, 0], [1, 2, 0, 1], [1, 2, 1, 0],
   [1, 3, 0, 0], [2, 0, 0, 2], [2, 0, 1, 1], [2, 0, 2, 0], [2, 1, 0, 1], [2, 1, 1, 0], [2, 2, 0, 0], [3, 0, 0, 1],
   [3, 0, 1, 0], [3, 1, 0, 0], [4, 0, 0, 0]]

theorem comps_quartic : comps 3 4 = quartics := by
  have h := tupleListGenerator_eq 4 3 (by decide)
  rw [show tupleListGenerator ((4 : ℕ) : ℤ) (3 + 1) = .ok quartics by decide +kernel] at h
  exact (Except.ok.inj h).symm

/-- The coefficients of `x^4 + y^4 + z^4 + w^4` in the order of the monomials. -/
def fermatVec : List ℤ := quartics.map (fun u => if 4 ∈ u then 1 else 0)

theorem quartics_isTable : IsTable 3 (4 : ℕ) quartics := comps_quartic ▸ comps_isTable 3 4

theorem fermatVec_filter : (quartics.zip (fermatVec.map (fun c : ℤ => (c : ZMod 3)))).filter (fun e => decide (e.2 ≠ 0)) =
    fermat4 (ZMod 3) := by decide +kernel

theorem xVec_filter : (quartics.zip ((1 :: List.replicate 34 0).map (fun c : ℤ => (c : ZMod 3)))).filter
    (fun e => decide (e.2 ≠ 0)) = [([0, 0, 0, 4], 1)] := by decide +kernel

theorem fermatVec_poly (hprime : Fact (Nat.Prime 3)) :
    toPoly (3 + 1) (quartics.zip (fermatVec.map (fun c : ℤ => (c : ZMod 3)))) = toPoly (3 + 1) (fermat4 (ZMod 3)) := by
  rw [← toPoly_filter]
  exact congrArg _ fermatVec_filter

/-- The Fermat quartic over `F_3`, for all random numbers, tries, precisions and lists of absolute precisions: the model is
non-degenerate, the matrix computed is the Frobenius matrix, and the program fails only when the list of absolute precisions
has the wrong length or does not determine a Weil polynomial. -/
example (hprime : Fact (Nat.Prime 3)) (la : RankDet (ZMod 3)) (hla : RankDetOK la) (rnd : Rnd (ZMod 3)) (t : ℕ)
    {la' : LinAlg (ZMod 3)} (hla' : LinAlgOK la') (flint pre : Bool) {order : ℕ → List ℕ}
    (ho : ∀ b, (order b).Perm (List.range b)) {cmp : ℕ → ℕ → Bool} (hcmp : CmpOK cmp)
    {factor : Polynomial ℤ → List (Polynomial ℤ × ℕ)} (hfac : FactorOK factor) (tries : ℤ) {K : ℕ} (hK : 1 ≤ K)
    (absPrec : List ℤ) :
    ∃ (A : Matrix (Fin (3 + 1)) (Fin (3 + 1)) (ZMod 3)) (Q : MvPolynomial (Fin (3 + 1)) (ZMod 3))
      (g : MonMap (ZMod (3 ^ K))) (D : DR (ZMod (3 ^ K))) (Φ : Matrix (Fin D.basis.length) (Fin D.basis.length) (ZMod (3 ^ K))),
      ProgModel (toPoly (3 + 1) (fermat4 (ZMod 3))) true A Q ∧ reduce (dvd_pow_self 3 (by omega)) (toPoly (3 + 1) g) = Q ∧
      Constructed (padicSolver 3 K la' flint K) 3 g 3 4 D ∧
      IsFrobenius (toPoly (3 + 1) g) 4 3 D.basis [2, 1, 0] (CMat.ofMatrix Φ).e ∧
      (absPrec.length ≠ D.basis.length + 1 → ∀ t', frobProgram 3 la rnd t t' (frobRoutine 3 la' flint pre order) cmp factor
            tries K (3 : ℕ) (4 : ℕ) fermatVec [2, 1, 0] absPrec = .error .assertFail) := by
  have hP := fermatVec_poly hprime
  have hnd := fermat4_noZero (p := 3) (by norm_num)
  have hs : NoCommonZero.{0} (fun i => pderiv i (toPoly (3 + 1) (fermat4 (ZMod 3)))) := by
    intro F _ _ x hx
    refine hnd F x (fun i => ?_)
    have := hx i
    beta_reduce at this ⊢
    rw [map_mul, this, mul_zero]
  rcases C68_frob_partial la hla rnd t hla' flint pre ho hcmp hfac tries hK (by norm_num) (by norm_num) (by norm_num) (by norm_num)
    size_quartic quartics_isTable fermatVec [2, 1, 0] absPrec (rfl) rfl
    (fun x hx => termsFit_three le_rfl ((by decide : ∀ x ∈ ([2, 1, 0] : List ℤ), x ≤ 50) x hx))
    (toPoly (3 + 1) (fermat4 (ZMod 3))) hP.symm hs with ⟨-, h⟩ | ⟨nd, A, Q, g, D, h1, -, h3, -, hC, hCN, h⟩
  · exact absurd hnd h
  cases nd with
  | false => exact absurd hnd (h1.degen rfl).2.2
  | true =>
    rcases h (fun E _ _ _ => Or.inr (Or.inl (by norm_num))) with ⟨-, h⟩ | ⟨Φ, h4, h5, -⟩
    · exfalso
      obtain ⟨b, hb, Ni, hNi, hpos, hd⟩ := h
      obtain ⟨e1, e2, hI⟩ := hC.init
      obtain ⟨i, hi⟩ := List.mem_iff_getElem?.1 hb
      have hpole := basis_pole hI.basis (by have := hI.ok.hd; omega) hi
      rw [e1, e2] at hpole
      obtain ⟨hp1, hp2⟩ : 1 ≤ poleOrder 3 4 b ∧ poleOrder 3 4 b ≤ 3 := ⟨hpole.1, hpole.2.1⟩
      generalize poleOrder 3 4 b = m at *
      interval_cases m
      · obtain rfl : (2 : ℤ) = Ni := by simpa using hNi
        revert hd; decide
      · obtain rfl : (1 : ℤ) = Ni := by simpa using hNi
        revert hd; decide
      · obtain rfl : (0 : ℤ) = Ni := by simpa using hNi
        omega
    · exact ⟨A, Q, g, D, Φ, h1, h3, hC, h4, h5⟩

/-- `x^4 + y^4 + z^4 + w^4` with all coefficients multiplied by 3, and with 34 coefficients. -/
example (hprime : Fact (Nat.Prime 3)) (la : RankDet (ZMod 3)) (rnd : Rnd (ZMod 3)) (t t' : ℕ) (frob : FrobRoutine 3)
    (cmp : ℕ → ℕ → Bool) (factor : Polynomial ℤ → List (Polynomial ℤ × ℕ)) (tries : ℤ) (N absPrec : List ℤ) :
    frobProgram 3 la rnd t t' frob cmp factor tries (2 : ℕ) (3 : ℕ) (4 : ℕ) (fermatVec.map (3 * ·)) N absPrec = .error .ub ∧
    frobProgram 3 la rnd t t' frob cmp factor tries (2 : ℕ) (3 : ℕ) (4 : ℕ) fermatVec.tail N absPrec = .error .assertFail := by
  refine ⟨C68_zero_wrong la rnd t frob cmp factor tries t' 2 (by decide) quartics_isTable _ N absPrec
    (by rw [List.length_map]; rfl) (fun c hc => ?_),
    C68_length la rnd t frob cmp factor tries t' (2 : ℕ) (by decide) _ N absPrec (by decide +kernel)⟩
  obtain ⟨a, -, rfl⟩ := List.mem_map.1 hc
  exact dvd_mul_right _ _

/-- `x^4` is singular. -/
example (hprime : Fact (Nat.Prime 3)) (la : RankDet (ZMod 3)) (hla : RankDetOK la) (rnd : Rnd (ZMod 3)) (t t' : ℕ)
    (frob : FrobRoutine 3) (cmp : ℕ → ℕ → Bool) (factor : Polynomial ℤ → List (Polynomial ℤ × ℕ)) (tries : ℤ)
    (N absPrec : List ℤ) :
    frobProgram 3 la rnd t t' frob cmp factor tries (2 : ℕ) (3 : ℕ) (4 : ℕ) (1 :: List.replicate 34 0) N absPrec =
      .error .abort := by
  have hP : toPoly (3 + 1) (quartics.zip ((1 :: List.replicate 34 0).map (fun c : ℤ => (c : ZMod 3)))) =
      monomial (expo (3 + 1) [0, 0, 0, 4]) 1 := by
    rw [← toPoly_filter]
    refine (congrArg _ xVec_filter).trans ?_
    rw [toPoly_cons, toPoly_nil, add_zero]
  refine C68_singular la rnd t frob cmp factor tries hla t' (by norm_num) (by norm_num) size_quartic quartics_isTable _ N
    absPrec (by decide +kernel) ?_ ?_
  · rw [hP]
    simp
  · intro h
    rw [hP] at h
    have h1 := h (ZMod 3) (fun i => if i = 0 then 1 else 0) (fun i => by
      beta_reduce
      rw [pderiv_monomial, aeval_monomial]
      fin_cases i <;> simp [expo_apply, Finsupp.prod_fintype, Fin.prod_univ_four])
    have := congrFun h1 0
    simp at this

end

end Verif
