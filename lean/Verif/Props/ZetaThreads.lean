import Verif.Model.ZetaThreads
import Verif.Props.Workers
import Verif.Props.Pipeline
import Verif.Props.CubicRun

/-!
Property C88: `zeta_function` returns the same polynomial and the same matrix for every number of threads, every
schedule and every state of the moduli of the threads.
-/

namespace Verif

open Spec MvPolynomial

theorem trimMat_congr {R : Type} [Zero R] {A B : CMat R} (hr : A.rows = B.rows) (hc : A.cols = B.cols)
    (h : ∀ i j, j < B.cols → A.e i j = B.e i j) : trimMat A = trimMat B := by
  rw [trimMat, trimMat, CMat.mk', CMat.mk', hr, hc]
  congr 1
  funext i j
  by_cases hij : i < B.rows ∧ j < B.cols
  · rw [if_pos hij, if_pos hij, h i j hij.2]
  · rw [if_neg hij, if_neg hij]

section

variable {p : ℕ} [hprime : Fact p.Prime] {n d : ℕ}

/-- **C88, `frob_matrix_ND` and `frob_matrix_J` on a new object.**  For a polynomial as `zeta_function` hands it over: what
the sequential computation without dictionaries returns is returned with every number of threads. -/
theorem C88_routine {K : ℕ} (hK : 1 ≤ K) {la : LinAlg (ZMod p)} (hla : LinAlgOK la) (flint saveMemory : Bool) (threads : ℕ)
    {order : ℕ → List ℕ} (ho : ∀ b, (order b).Perm (List.range b)) {sched : ℕ → ℕ → ℕ → List ℕ}
    (hs : ∀ i e k, (sched i e k).Perm (List.range k)) (ws : (K : ℕ) → ℕ → Solver (ZMod (p ^ K)))
    (hn : 1 ≤ n) (hn' : n ≤ 61) (hnp : n < 2 * p) {g : MonMap (ZMod (p ^ K))} (hg : WFPoly (n + 1) g)
    (hdeg : ∀ e ∈ g, deg e.1 = d) (hsize : ∀ l ≤ (n + 1) * d, (l + n).choose n < 2 ^ 63) (nd : Bool) (N : List ℤ)
    (F : ℕ × CMat (ZMod (p ^ K))) (hF : frobRoutine p la flint false List.range K nd g N = .ok F) :
    frobRoutineThreads p la flint saveMemory threads order sched ws K nd g N = .ok F := by
  have hq : 1 < p ^ K := Nat.one_lt_pow (by omega) hprime.out.one_lt
  have : Fact (1 < p ^ K) := ⟨hq⟩
  have : Nontrivial (ZMod (p ^ K)) := nontrivial_pow (p := p) hK
  have hsol := padicSolver_ok hla flint (le_refl K)
  cases nd with
  | true =>
    rw [frobRoutine, if_pos rfl, Res.bind_eq_ok] at hF
    obtain ⟨D, hD, hF⟩ := hF
    rw [Res.bind_eq_ok] at hF
    obtain ⟨r, hr, hF⟩ := hF
    obtain rfl := Except.ok.inj hF
    have hC : ConstructedND (padicSolver p K la flint K) p g n d D := ⟨hsol, hg, hdeg, hsize, hD⟩
    have hnD : D.n = n := hC.init.1
    have hT : Reached n g (fpowStart D.n) := by rw [hnD]; exact reached_start n g
    rw [frobRoutineThreads, if_pos rfl, hD, Res.bind_ok]
    by_cases ht : 1 < threads
    · obtain ⟨r', hr', h1, h2, h3⟩ := C51_threads hC hn hT hT false true (List.Perm.refl _) (ho _) N r hr
      obtain ⟨st', -, hw⟩ := C87_frob_matrix_ND hC hn hn' saveMemory [] [] _ rfl p _ _ hT N r' hr' (ws K) sched hs
      have hw' : cFrobMatrixNDWorkers (fun T => solveSystemPadic la flint T K) D saveMemory (ws K) sched p
          (order D.basis.length) (fpowStart D.n) N (NDCache.empty _) = .ok (r', st') := hw
      have hcols := ((C51_columns hC hn hT false (List.Perm.refl _) N).1 r hr).2.1
      rw [if_pos ht, hw', Res.bind_ok, trimMat_congr h1 h2 (fun i j hj => h3 i j (by rw [← hcols]; exact hj))]
    · have hsim := (nsim_frobMatrixND (cokEq_of hC) saveMemory p false (List.range D.basis.length) (fpowStart D.n) N
        (NDCache.empty _) (ndReached_ok hC (sm := saveMemory) (pre := []) rfl)).1 r (by
          have hc : check (decide (D.n = N.length)) = .ok () := by
            rw [frobMatrixND, Res.bind_eq_ok] at hr
            obtain ⟨⟨⟩, h, -⟩ := hr
            exact h
          rw [hc]
          exact hr)
      obtain ⟨st', e, -⟩ := hsim
      have e' : cFrobMatrixND (fun T => solveSystemPadic la flint T K) D saveMemory p false (List.range D.basis.length)
          (fpowStart D.n) N (NDCache.empty _) = .ok (r, st') := e
      rw [if_neg ht, e', Res.bind_ok]
  | false =>
    rw [frobRoutine, if_neg (by simp), Res.bind_eq_ok] at hF
    obtain ⟨D, hD, hF⟩ := hF
    rw [Res.bind_eq_ok] at hF
    obtain ⟨r, hr, hF⟩ := hF
    obtain rfl := Except.ok.inj hF
    have hC : Constructed (padicSolver p K la flint K) p g n d D := ⟨hsol, hg, hdeg, hsize, hD⟩
    have hnD : D.n = n := hC.init.1
    have hT : Reached n g (fpowStart D.n) := by rw [hnD]; exact reached_start n g
    have hhigh : ∀ b Ni, b ∈ D.basis → N[poleOrder n d b - 1]? = some Ni → 0 < Ni →
        n / p ≤ poleOrder n d b + Ni.toNat - 1 := by
      intro b Ni hb _ hNi
      have := (Nat.div_lt_iff_lt_mul hprime.out.pos).2 hnp
      obtain ⟨i, hi, rfl⟩ := List.getElem_of_mem hb
      have := (basis_pole_order hC ⟨i, hi⟩).1
      simp only [Fin.getElem_fin] at this
      omega
    rw [frobRoutineThreads, if_neg (by simp), hD, Res.bind_ok]
    by_cases ht : 1 < threads
    · obtain ⟨r', hr', h1, h2, h3⟩ := C33_threads hC hn hT hT false true (List.Perm.refl _) (ho _) N hhigh r hr
      obtain ⟨st', -, hw⟩ := C87_frob_matrix_J hC hn saveMemory [] [] _ rfl p _ _ hT N r' hr' (ws K)
      have hw' : cFrobMatrixJWorkers (fun T => solveSystemPadic la flint T K) saveMemory D (ws K) p
          (order D.basis.length) (fpowStart D.n) N (JCache.empty _) = .ok (r', st') := hw
      have hcols := ((C33_columns hC hn hT false (List.Perm.refl _) N hhigh).1 r hr).2.1
      rw [if_pos ht, hw', Res.bind_ok, trimMat_congr h1 h2 (fun i j hj => h3 i j (by rw [← hcols]; exact hj))]
    · obtain ⟨st', e, -⟩ := (sim_frobMatrixJ (solve := padicSolver p K la flint K) (D := D) saveMemory p false
        (List.range D.basis.length) (fpowStart D.n) N (JCache.empty _) cacheOK_empty).1 r (by
          have hc : check (decide (D.n = N.length)) = .ok () := by
            rw [frobMatrixJ, Res.bind_eq_ok] at hr
            obtain ⟨⟨⟩, h, -⟩ := hr
            exact h
          rw [hc]
          exact hr)
      have e' : cFrobMatrixJ (fun T => solveSystemPadic la flint T K) D saveMemory p false (List.range D.basis.length)
          (fpowStart D.n) N (JCache.empty _) = .ok (r, st') := e
      rw [if_neg ht, e', Res.bind_ok]

/-- A routine may be replaced by one that returns the same on the models `zeta_function` hands over. -/
theorem zetaMain_mono (la : RankDet (ZMod p)) (hla : RankDetOK la) (rnd : Rnd (ZMod p)) (t : ℕ) {frob frob' : FrobRoutine p}
    (f : MonMap Int) (hf : WFPoly (n + 1) f) (hne : f ≠ []) (hdeg : ∀ e ∈ f, deg e.1 = d) (abs : ℤ) (increase better : Bool)
    (h : ∀ K, 1 ≤ K → ∀ nd (g : MonMap (ZMod (p ^ K))) N F, 2 ≤ n → n ≤ 3 → WFPoly (n + 1) g → (∀ e ∈ g, deg e.1 = d) →
      (∀ l ≤ (n + 1) * d, (l + n).choose n < 2 ^ 63) → frob K nd g N = .ok F → frob' K nd g N = .ok F)
    (x : Option (List ℤ × CMat ℤ)) (hx : zetaMain p la rnd t frob f abs increase better = .ok x) :
    zetaMain p la rnd t frob' f abs increase better = .ok x := by
  have hs : DegreeInIdeal ((d - 2) * (n + 1) + 1) (fun i => pderiv i (toPoly (n + 1) (reduceCoeffs p f))) := by
    by_contra hs
    rw [C40_singular la hla rnd t frob f hf hne hdeg abs increase better hs] at hx
    cases hx
  rw [zetaMain_eq la rnd t _ f hf hne hdeg] at hx ⊢
  obtain ⟨z, hz, hx⟩ := Res.bind_eq_ok.1 hx
  rw [hz, Res.bind_ok]
  obtain ⟨a, ha⟩ : ∃ a, defaultArgs p n d = .ok a := by
    have hz := hz
    rw [choosePrec, Res.bind_eq_ok] at hz
    obtain ⟨a, ha, -⟩ := hz
    exact ⟨a, ha⟩
  have hmem : ((n : ℤ), (d : ℤ)) ∈ defaultPairs := by
    by_contra hn
    rw [(C12_domain p n d).2 hn] at ha
    cases ha
  obtain ⟨b1, b2, b3, b4⟩ := pairs_bounds hmem
  obtain ⟨hd, hsize⟩ := size_default ha
  obtain ⟨-, h0, -⟩ := C40_result la hla rnd t frob f hf hne hdeg abs increase better ha hz hs
  have h0' : z.precision.toNat ≠ 0 := by omega
  haveI : NeZero (p ^ z.precision.toNat) := ⟨pow_ne_zero _ hprime.out.ne_zero⟩
  obtain ⟨o, ho, hx⟩ := Res.bind_eq_ok.1 hx
  rw [ho, Res.bind_ok]
  rcases ((C40_model.{0} (dvd_pow_self p h0') la hla rnd t better f hf hne hdeg hd hsize).2 hs).2 with h1 | ⟨nd, g, h1, hM⟩
  · rw [h1] at ho
    obtain rfl := Except.ok.inj ho
    exact hx
  · rw [h1] at ho
    obtain rfl := Except.ok.inj ho
    have hx : (frob z.precision.toNat nd g z.N >>= fun F => (do
        check (decide (F.1 + 1 = z.charpolyPrec.length))
        let cp ← zetaPoly p n abs z (repMat F.2)
        .ok (some (cp, repMat F.2)) : Res (Option (List ℤ × CMat ℤ)))) = .ok x := hx
    obtain ⟨F, hF, hx⟩ := Res.bind_eq_ok.1 hx
    show (frob' z.precision.toNat nd g z.N >>= fun F => (do
        check (decide (F.1 + 1 = z.charpolyPrec.length))
        let cp ← zetaPoly p n abs z (repMat F.2)
        .ok (some (cp, repMat F.2)) : Res (Option (List ℤ × CMat ℤ)))) = .ok x
    rw [h _ h0 nd g z.N F b1 b2 hM.wf hM.hom hsize hF, Res.bind_ok]
    exact hx

/-- **C88.**  For every homogeneous integer polynomial, prime and options, and the same random numbers: what `zeta_function`
returns with the sequential computation without dictionaries, it returns with every number of threads, for every
order of the iterations, every schedule of the inner loops, with and without `save_memory`, and whatever solvers the
threads have. -/
theorem C88_zeta (la : RankDet (ZMod p)) (hla : RankDetOK la) (rnd : Rnd (ZMod p)) (t : ℕ) {la' : LinAlg (ZMod p)}
    (hla' : LinAlgOK la') (flint saveMemory : Bool) (threads : ℕ) {order : ℕ → List ℕ}
    (ho : ∀ b, (order b).Perm (List.range b)) {sched : ℕ → ℕ → ℕ → List ℕ}
    (hs : ∀ i e k, (sched i e k).Perm (List.range k)) (ws : (K : ℕ) → ℕ → Solver (ZMod (p ^ K))) (f : MonMap Int)
    (hf : WFPoly (n + 1) f) (hne : f ≠ []) (hdeg : ∀ e ∈ f, deg e.1 = d) (abs : ℤ) (increase better : Bool)
    (x : Option (List ℤ × CMat ℤ))
    (hx : zetaMain p la rnd t (frobRoutine p la' flint false List.range) f abs increase better = .ok x) :
    zetaMain p la rnd t (frobRoutineThreads p la' flint saveMemory threads order sched ws) f abs increase better = .ok x :=
  zetaMain_mono la hla rnd t f hf hne hdeg abs increase better (fun K hK nd g N F h2 h3 hg hdg hsize hF =>
    C88_routine hK hla' flint saveMemory threads ho hs ws (by omega) (by omega) (by have := hprime.out.two_le; omega) hg hdg
      hsize nd N F hF) x hx

end

local instance zetaThreadsPrime : Fact (Nat.Prime 17) := ⟨by norm_num⟩

/-- **C88 on a plane cubic.**  `x^3 + y^3 + z^3 + y z^2` at `p = 17` with the default precision: for every number of
threads, every order and schedule and every solver of the threads, `zeta_function` returns `T^2 - a T + 17` for the
`a` between -8 and 8 congruent to the trace of the matrix `Φ` of C65. -/
theorem C88_cubic (la : RankDet (ZMod 17)) (hla : RankDetOK la) (rnd : Rnd (ZMod 17)) (t : ℕ) (la' : LinAlg (ZMod 17))
    (hla' : LinAlgOK la') (flint : Bool) (abs : ℤ) (habs : abs ≤ 0) (increase better : Bool) :
    ∃ Φ : Matrix (Fin 2) (Fin 2) (ZMod (17 ^ 1)),
      IsFrobenius (toPoly (2 + 1) (cubicYZ (17 ^ 1))) 3 17 [[0, 0, 0], [1, 2, 0]] [0, 1] (CMat.ofMatrix Φ).e ∧
      ∃ a : ℤ, -8 ≤ a ∧ a ≤ 8 ∧ (a : ZMod (17 ^ 1)) = Φ.trace ∧
        ∀ (saveMemory : Bool) (threads : ℕ) (order : ℕ → List ℕ) (sched : ℕ → ℕ → ℕ → List ℕ)
          (ws : (K : ℕ) → ℕ → Solver (ZMod (17 ^ K))), (∀ b, (order b).Perm (List.range b)) →
          (∀ i e k, (sched i e k).Perm (List.range k)) →
          zetaMain 17 la rnd t (frobRoutineThreads 17 la' flint saveMemory threads order sched ws)
            [([0, 0, 3], 1), ([0, 1, 2], 1), ([0, 3, 0], 1), ([3, 0, 0], 1)] abs increase better =
          .ok (some ([17, -a, 1], CMat.ofMatrix (Φ.map (fun x => (x.val : ℤ))))) := by
  obtain ⟨-, -, Φ, hΦ, a, h1, h2, h3, h4⟩ := C65_default_cubic_trace la hla rnd t la' hla' flint false
    (order := List.range) (fun b => List.Perm.refl _) abs habs increase better
  obtain ⟨f1, f2, f3⟩ := cubicInt_wf
  exact ⟨Φ, hΦ, a, h1, h2, h3, fun saveMemory threads order sched ws ho hs =>
    C88_zeta (n := 2) (d := 3) la hla rnd t hla' flint saveMemory threads ho hs ws _ f1 f2 f3 abs increase better _ h4⟩

/-- The linear algebra exists; four threads that cannot solve a system, everything backwards. -/
example : ∃ (la : RankDet (ZMod 17)) (la' : LinAlg (ZMod 17)) (a : ℤ) (F : CMat ℤ), -8 ≤ a ∧ a ≤ 8 ∧
    zetaMain 17 la ⟨fun _ => 0, fun _ => 0⟩ 1 (frobRoutineThreads 17 la' true true 4 (fun b => (List.range b).reverse)
      (fun _ _ k => (List.range k).reverse) (fun _ _ _ => .error .ub))
      [([0, 0, 3], 1), ([0, 1, 2], 1), ([0, 3, 0], 1), ([3, 0, 0], 1)] 0 false true = .ok (some ([17, -a, 1], F)) := by
  obtain ⟨la, hla⟩ := exists_rankDet (ZMod 17)
  obtain ⟨la', hla'⟩ := exists_linAlg (ZMod 17)
  obtain ⟨Φ, -, a, h1, h2, -, h⟩ := C88_cubic la hla ⟨fun _ => 0, fun _ => 0⟩ 1 la' hla' true 0 le_rfl false true
  exact ⟨la, la', a, _, h1, h2, h true 4 _ _ _ (fun b => List.reverse_perm _) (fun _ _ k => List.reverse_perm _)⟩

end Verif
