import Verif.Lemmas.DrawPaths
import Verif.Props.Paths
import Verif.Props.ND

/-!
C72: `test_paths_J` and `test_paths_ND` with their own random choices.
-/

namespace Verif

open Verif.Spec

section

variable {p N : ℕ} [Fact p.Prime]

/-- **C72 (test_paths_J).**  For an object returned by the constructor and whatever numbers `RandomBnd` delivers: the paths chosen are
paths, no array is left, and `test_paths_J(trials, paths)` does not return `false`; the assertions say that there is
something to do. -/
theorem C72_test_paths (hN : 1 ≤ N) (la : LinAlg (ZMod p)) (hla : LinAlgOK la) (flint : Bool)
    (precision : ℕ) (hprec : N ≤ precision) {q n d : ℕ} {f : MonMap (ZMod (p ^ N))} {D : DR (ZMod (p ^ N))}
    (hC : Constructed (padicSolver p N la flint precision) q f n d D) (hn : 1 ≤ n) (rnd : ℕ → ℕ) (t trials paths : ℕ) :
    if 0 < trials ∧ 0 < paths then
      testPathsRndJ rnd (padicSolver p N la flint precision) D t trials paths = .ok none ∨
      testPathsRndJ rnd (padicSolver p N la flint precision) D t trials paths = .ok (some true)
    else testPathsRndJ rnd (padicSolver p N la flint precision) D t trials paths = .error .assertFail := by
  obtain ⟨rfl, rfl, hI⟩ := hC.init
  have hnd : D.n < D.d := hI.ok.hd
  unfold testPathsRndJ
  split
  · rename_i h
    rw [decide_eq_true h.1, check_true, Res.bind_ok, decide_eq_true h.2, check_true, Res.bind_ok]
    rcases drawAttempts_ok (dirJ rnd hnd) (by omega) (startJ rnd hnd) t paths trials 0 with h1 | ⟨att, h1, -, h2⟩
    · rw [h1]; exact Or.inl rfl
    · rw [h1, Res.bind_ok]
      simp only
      rw [C25_test_paths hN la hla flint precision hprec hC hn att (fun a ha =>
        ⟨(h2 a ha).1.1, (h2 a ha).1.2, (h2 a ha).2.2⟩)]
      exact Or.inr rfl
  · rename_i h
    by_cases h1 : 0 < trials
    · rw [decide_eq_true h1, check_true, Res.bind_ok, decide_eq_false (fun h2 => h ⟨h1, h2⟩), check_false]; rfl
    · rw [decide_eq_false h1, check_false]; rfl

/-- **C72 (test_paths_ND).** -/
theorem C72_test_paths_ND (hN : 1 ≤ N) (la : LinAlg (ZMod p)) (hla : LinAlgOK la) (flint : Bool)
    (precision : ℕ) (hprec : N ≤ precision) {q n d : ℕ} {f : MonMap (ZMod (p ^ N))} {D : ND (ZMod (p ^ N))}
    (hC : ConstructedND (padicSolver p N la flint precision) q f n d D) (hn : 1 ≤ n) (rnd : ℕ → ℕ) (t trials paths : ℕ) :
    if trials ≠ 0 ∧ paths ≠ 0 then
      testPathsRndND rnd (padicSolver p N la flint precision) D t trials paths = .ok none ∨
      testPathsRndND rnd (padicSolver p N la flint precision) D t trials paths = .ok (some true)
    else testPathsRndND rnd (padicSolver p N la flint precision) D t trials paths = .error .assertFail := by
  obtain ⟨rfl, rfl, hI⟩ := hC.init
  have hnd : D.n < D.d := hI.base.ok.hd
  unfold testPathsRndND
  split
  · rename_i h
    rw [decide_eq_true h.1, check_true, Res.bind_ok, decide_eq_true h.2, check_true, Res.bind_ok]
    rcases drawAttempts_ok (dirND rnd (n := D.n) (d := D.d) (by omega)) (by omega) (startND rnd (by omega)) t paths trials 0
      with h1 | ⟨att, h1, -, h2⟩
    · rw [h1]; exact Or.inl rfl
    · rw [h1, Res.bind_ok]
      simp only
      rw [C25_test_paths_ND hN la hla flint precision hprec hC hn att (fun a ha =>
        ⟨(h2 a ha).1.1, fun x hx => by have := (h2 a ha).1.2 x hx; omega, (h2 a ha).2.2⟩)]
      exact Or.inr rfl
  · rename_i h
    by_cases h1 : trials ≠ 0
    · rw [decide_eq_true h1, check_true, Res.bind_ok, decide_eq_false (fun h2 => h ⟨h1, h2⟩), check_false]; rfl
    · rw [decide_eq_false h1, check_false]; rfl

/-- **C72 (the tests end).**  If every residue modulo `n + 1` is drawn again and again, all loops of `test_paths_J` end: from some
bound on the number of passes on, the result is `true`. -/
theorem C72_ends (hN : 1 ≤ N) (la : LinAlg (ZMod p)) (hla : LinAlgOK la) (flint : Bool)
    (precision : ℕ) (hprec : N ≤ precision) {q n d : ℕ} {f : MonMap (ZMod (p ^ N))} {D : DR (ZMod (p ^ N))}
    (hC : Constructed (padicSolver p N la flint precision) q f n d D) (hn : 1 ≤ n) (rnd : ℕ → ℕ)
    (hfair : ∀ k < n + 1, ∀ pos, ∃ j, pos ≤ j ∧ rnd j % (n + 1) = k) (trials paths : ℕ) (h1 : 0 < trials) (h2 : 0 < paths) :
    ∃ t0, ∀ t, t0 ≤ t →
      testPathsRndJ rnd (padicSolver p N la flint precision) D t trials paths = .ok (some true) := by
  have hmain := C72_test_paths hN la hla flint precision hprec hC hn rnd
  obtain ⟨rfl, rfl, hI⟩ := hC.init
  have hnd : D.n < D.d := hI.ok.hd
  have hdir := dirJ rnd hnd
  have hst := startJ rnd hnd
  obtain ⟨t0, x, hx⟩ := drawAttempts_ends hdir (by omega) hst (dirJ_ends rnd hnd hfair) paths trials 0
  refine ⟨t0, fun t ht => ?_⟩
  obtain ⟨s, rfl⟩ : ∃ s, t = t0 + s := ⟨t - t0, by omega⟩
  have h3 := hmain (t0 + s) trials paths
  rw [if_pos ⟨h1, h2⟩] at h3
  rcases h3 with h3 | h3
  · exfalso
    unfold testPathsRndJ at h3
    rw [decide_eq_true h1, check_true, Res.bind_ok, decide_eq_true h2, check_true, Res.bind_ok,
      drawAttempts_mono (start2 := drawStart rnd D.n D.d D.n 0 (t0 + s)) (dir2 := drawDirJ rnd D.n D.d (t0 + s))
        (fun pos x hx => hst.mono _ _ _ _ hx) (fun pos u x hx => hdir.mono _ _ _ _ _ hx) t0 s _ _ _ _ hx, Res.bind_ok] at h3
    simp only [Res.bind_eq_ok] at h3
    obtain ⟨_, -, h3⟩ := h3
    cases h3
  · exact h3

/-- **C72 (the tests end, non-degenerate).** -/
theorem C72_ends_ND (hN : 1 ≤ N) (la : LinAlg (ZMod p)) (hla : LinAlgOK la) (flint : Bool)
    (precision : ℕ) (hprec : N ≤ precision) {q n d : ℕ} {f : MonMap (ZMod (p ^ N))} {D : ND (ZMod (p ^ N))}
    (hC : ConstructedND (padicSolver p N la flint precision) q f n d D) (hn : 1 ≤ n) (rnd : ℕ → ℕ)
    (hfair : ∀ k < n + 1, ∀ pos, ∃ j, pos ≤ j ∧ rnd j % (n + 1) = k) (trials paths : ℕ) (h1 : trials ≠ 0) (h2 : paths ≠ 0) :
    ∃ t0, ∀ t, t0 ≤ t →
      testPathsRndND rnd (padicSolver p N la flint precision) D t trials paths = .ok (some true) := by
  have hmain := C72_test_paths_ND hN la hla flint precision hprec hC hn rnd
  obtain ⟨rfl, rfl, hI⟩ := hC.init
  have hnd : D.n < D.d := hI.base.ok.hd
  have hdir := dirND rnd (n := D.n) (d := D.d) (by omega)
  have hst := startND rnd (n := D.n) (d := D.d) (by omega)
  obtain ⟨t0, x, hx⟩ := drawAttempts_ends hdir (by omega) hst (dirND_ends rnd hnd hfair) paths trials 0
  refine ⟨t0, fun t ht => ?_⟩
  obtain ⟨s, rfl⟩ : ∃ s, t = t0 + s := ⟨t - t0, by omega⟩
  have h3 := hmain (t0 + s) trials paths
  rw [if_pos ⟨h1, h2⟩] at h3
  rcases h3 with h3 | h3
  · exfalso
    unfold testPathsRndND at h3
    rw [decide_eq_true h1, check_true, Res.bind_ok, decide_eq_true h2, check_true, Res.bind_ok,
      drawAttempts_mono (start2 := drawStart rnd D.n D.d 0 1 (t0 + s)) (dir2 := drawDirND rnd D.n D.d (t0 + s))
        (fun pos x hx => hst.mono _ _ _ _ hx) (fun pos u x hx => hdir.mono _ _ _ _ _ hx) t0 s _ _ _ _ hx, Res.bind_ok] at h3
    simp only [Res.bind_eq_ok] at h3
    obtain ⟨_, -, h3⟩ := h3
    cases h3
  · exact h3

end

/-- The sequence 0, 1, 2, ... is fair; for a plane cubic it chooses from (0, 1, 2), raised to (1, 2, 2), the directions
(1, 1, 1); the constructors return objects. -/
example : (∀ k < 2 + 1, ∀ pos, ∃ j, pos ≤ j ∧ id j % (2 + 1) = k) ∧
    drawAttempts (drawStart id 2 3 2 0 20) (drawDirJ id 2 3 20) 3 2 20 2 1 0 =
      .ok (some [([1, 2, 2], [[[1, 1, 1]], [[1, 1, 1]]])]) ∧
    drawAttempts (drawStart id 2 3 0 1 20) (drawDirND id 2 3 20) 3 3 20 1 1 0 =
      .ok (some [([1, 2, 3], [[[0, 1, 2]]])]) ∧
    (∃ (_ : Fact (Nat.Prime 5)) (la : LinAlg (ZMod 5)), LinAlgOK la ∧
      ∃ D, Constructed (padicSolver 5 2 la true 2) 5 exCurve 2 3 D) ∧
    ∃ (_ : Fact (Nat.Prime 5)) (la : LinAlg (ZMod 5)), LinAlgOK la ∧
      ∃ D, ConstructedND (padicSolver 5 2 la true 2) 5 exCubic 1 3 D := by
  refine ⟨?_, by decide +kernel, by decide +kernel, ?_, ?_⟩
  · intro k hk pos
    exact ⟨3 * pos + k, by omega, by simp only [id]; omega⟩
  · have hp : Fact (Nat.Prime 5) := ⟨by norm_num⟩
    obtain ⟨la, hla⟩ := exists_linAlg (ZMod 5)
    obtain ⟨D, h, -⟩ := exCurve_padic la hla true
    exact ⟨hp, la, hla, D, h⟩
  · have hp : Fact (Nat.Prime 5) := ⟨by norm_num⟩
    obtain ⟨la, hla⟩ := exists_linAlg (ZMod 5)
    obtain ⟨D, h, -⟩ := exCubic_padicND la hla true
    exact ⟨hp, la, hla, D, h⟩

end Verif
