import Verif.Props.ZetaThreads
import Verif.Props.Dwork

/-!
Property C88 for the programs `examples/frob.cc` (`omp_set_num_threads(atoi(argv[1]))`, line 61), `K3_dwork.cc` and
`K3_dwork2.cc`: the number of threads does not change what they compute.
-/

namespace Verif

open Spec MvPolynomial

section

variable {p : ℕ} [hprime : Fact p.Prime] {n d : ℕ}

/-- **C88 (`frob.cc`).**  For every vector of coefficients, precision, list of numbers of terms and of precisions: what the
program computes sequentially and without dictionaries (the change of variables, the new polynomial, the matrix, the characteristic
polynomial and the Picard number) it computes with every number of threads, order, schedule, value of `save_memory` and
whatever solvers the threads have.  A run that returns is in Props/FrobCubic.lean. -/
theorem C88_frob (la : RankDet (ZMod p)) (hla : RankDetOK la) (rnd : Rnd (ZMod p)) (t t' : ℕ) {la' : LinAlg (ZMod p)}
    (hla' : LinAlgOK la') (flint saveMemory : Bool) (threads : ℕ) {order : ℕ → List ℕ}
    (ho : ∀ b, (order b).Perm (List.range b)) {sched : ℕ → ℕ → ℕ → List ℕ}
    (hs : ∀ i e k, (sched i e k).Perm (List.range k)) (ws : (K : ℕ) → ℕ → Solver (ZMod (p ^ K)))
    (cmp : ℕ → ℕ → Bool) (factor : Polynomial ℤ → List (Polynomial ℤ × ℕ)) (tries : ℤ) {K : ℕ} (hK : 1 ≤ K)
    (hn : 1 ≤ n) (hn' : n ≤ 61) (hnp : n < 2 * p) (hd : 2 ≤ d) (hsize : ∀ l ≤ (n + 1) * d, (l + n).choose n < 2 ^ 63)
    (f N absPrec : List ℤ) (x : Option (FrobOutput p (p ^ K)))
    (hx : frobProgram p la rnd t t' (frobRoutine p la' flint false List.range) cmp factor tries K n d f N absPrec = .ok x) :
    frobProgram p la rnd t t' (frobRoutineThreads p la' flint saveMemory threads order sched ws) cmp factor tries K n d f N
      absPrec = .ok x := by
  have hNZ : NeZero (p ^ K) := ⟨pow_ne_zero _ hprime.out.ne_zero⟩
  have hdvd : p ∣ p ^ K := dvd_pow_self p (by omega)
  have hsz : (d + n).choose n < 2 ^ 63 := hsize d (by nlinarith)
  have hL := comps_isTable n d
  by_cases hlen : f.length = (comps n d).length
  swap
  · rw [C68_length la rnd t _ cmp factor tries t' K hsz f N absPrec (by
      rw [comps_length] at hlen; exact hlen)] at hx
    cases hx
  rw [frobProgram_eq la rnd t _ cmp factor tries t' K hsz hL f N absPrec hlen] at hx ⊢
  obtain ⟨h1, h2, h3, h4⟩ := originalMap_ok hL (f.map (fun c : ℤ => (c : ZMod p))) (by rw [List.length_map, hlen])
  obtain ⟨o, ho'⟩ : ∃ o, o = originalMap (comps n d) (f.map (fun c : ℤ => (c : ZMod p))) := ⟨_, rfl⟩
  rw [← ho'] at h1 h2 h3 h4 hx ⊢
  have hne : o ≠ [] := by
    rintro rfl
    cases hx
  obtain ⟨b, e, -⟩ := (C60_tests (q := p ^ K) hdvd la hla o h1 hne h2 hd hsize).1
  simp only [e, Res.bind_ok] at hx ⊢
  cases b with
  | false => cases hx
  | true =>
    simp only [if_true] at hx ⊢
    rcases search_result (q := p ^ K) hdvd la hla h1 hne h2 (by omega) hsize rnd t tries with
      ⟨h5, -⟩ | ⟨M, tr, g0, h5, hr, hc, hg1, hg2, hg3, hg4, -⟩
    · rw [h5] at hx ⊢
      exact hx
    · simp only [h5, Res.bind_ok, hg1, naiveLift_eq hg2] at hx ⊢
      obtain ⟨F, hF, hx⟩ := Res.bind_eq_ok.1 hx
      rw [C88_routine hK hla' flint saveMemory threads ho hs ws hn hn' hnp (repMap_wf hg2) (repMap_deg hg4) hsize _ N F hF,
        Res.bind_ok]
      exact hx

/-- **C88 (`K3_dwork.cc`).** -/
theorem C88_dwork (la : RankDet (ZMod p)) {la' : LinAlg (ZMod p)} (hla' : LinAlgOK la') (flint saveMemory : Bool) (threads : ℕ)
    {order : ℕ → List ℕ} (ho : ∀ b, (order b).Perm (List.range b)) {sched : ℕ → ℕ → ℕ → List ℕ}
    (hs : ∀ i e k, (sched i e k).Perm (List.range k)) (ws : (K : ℕ) → ℕ → Solver (ZMod (p ^ K))) (lambda : ℤ) (x : List ℤ)
    (hx : dworkProgram p la (frobRoutine p la' flint false List.range) lambda = .ok x) :
    dworkProgram p la (frobRoutineThreads p la' flint saveMemory threads order sched ws) lambda = .ok x := by
  obtain ⟨h1, h2, h3⟩ := dworkMap_wf (lambda : ZMod p)
  rw [dworkProgram] at hx ⊢
  obtain ⟨a, ha, hx⟩ := Res.bind_eq_ok.1 hx
  rw [ha, Res.bind_ok]
  obtain ⟨b, hb, hx⟩ := Res.bind_eq_ok.1 hx
  simp only [hb, Res.bind_ok]
  obtain ⟨F, hF, hx⟩ := Res.bind_eq_ok.1 hx
  rw [dwork_lift] at hF ⊢
  rw [C88_routine (n := 3) (d := 4) (dwork_args ha).1 hla' flint saveMemory threads ho hs ws (by norm_num) (by norm_num)
    (by have := hprime.out.two_le; omega) (repMap_wf h1) (repMap_deg h3) size_quartic true a.N F hF, Res.bind_ok]
  exact hx

/-- **C88 (`K3_dwork2.cc`).** -/
theorem C88_dwork2 (la : RankDet (ZMod p)) (hla : RankDetOK la) (rnd : Rnd (ZMod p)) (t : ℕ) {la' : LinAlg (ZMod p)}
    (hla' : LinAlgOK la') (flint saveMemory : Bool) (threads : ℕ) {order : ℕ → List ℕ}
    (ho : ∀ b, (order b).Perm (List.range b)) {sched : ℕ → ℕ → ℕ → List ℕ}
    (hs : ∀ i e k, (sched i e k).Perm (List.range k)) (ws : (K : ℕ) → ℕ → Solver (ZMod (p ^ K))) (lambda : ℤ)
    (x : Option (List ℤ × CMat ℤ))
    (hx : dwork2Program p la rnd t (frobRoutine p la' flint false List.range) lambda = .ok x) :
    dwork2Program p la rnd t (frobRoutineThreads p la' flint saveMemory threads order sched ws) lambda = .ok x := by
  obtain ⟨h1, h2, h3⟩ := dworkMap_wf (lambda : ℤ)
  exact C88_zeta (n := 3) (d := 4) la hla rnd t hla' flint saveMemory threads ho hs ws _ h1 h2 h3 0 true true x hx

end

end Verif
