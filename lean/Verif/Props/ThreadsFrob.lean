import Verif.Lemmas.ThreadsFrob
import Verif.Props.FrobND

/-!
Property C58: the branch of `frob_ND_flint` for several threads returns what the branch for one thread returns, for
every schedule of its parallel loop.
-/

namespace Verif

open Spec

section

variable {q : Nat}

/-- **C58.**  `frob_ND_flint` with several threads returns `r` exactly when it does with one thread, whatever the order
in which the iterations of the parallel loop are executed in each pass. -/
theorem C58_threads_ND (solve : Solver (ZMod q)) (N : ND (ZMod q)) (p : Nat) (T : List (MonMap (ZMod q)))
    (coord prec : Nat) (sched : Nat → Nat → List Nat) (hs : ∀ e k, List.Perm (sched e k) (List.range k))
    (r : CVec (ZMod q) × List (MonMap (ZMod q))) :
    frobNDFlintThreads sched solve N p T coord prec = .ok r ↔ frobNDFlint solve N p T coord prec = .ok r := by
  rw [frobNDFlintThreads, frobNDFlint, frobFunND]
  cases check (decide (0 < prec)) with
  | error x => exact Iff.rfl
  | ok _ =>
    simp only [Res.bind_ok]
    cases aget N.basis coord with
    | error x => exact Iff.rfl
    | ok ei =>
      simp only [Res.bind_ok]
      cases computeFpow N.f T ((prec : Int) - 1) with
      | error x => exact Iff.rfl
      | ok T' =>
        simp only [Res.bind_ok]
        by_cases h0 : N.d = 0 ∨ p = 0
        · rw [if_pos h0, if_pos h0]
        · rw [if_neg h0, if_neg h0, frobCoreND]
          simp only [bind_assoc, pure_bind]
          rw [Res.bind_eq_ok, Res.bind_eq_ok]
          have key := downTo_iff (lo := 0)
            (f := frobPassNDThreads sched solve N p T' ei ((sumVec ei + N.n + 1) / N.d).toNat prec)
            (g := frobPassND (varNDFlint solve N p) solve N p T' ei ((sumVec ei + N.n + 1) / N.d).toNat prec)
            (fun e s s' => flint_pass hs)
          exact ⟨fun ⟨st, h1, h2⟩ => ⟨st, (key _ _ _).1 h1, h2⟩, fun ⟨st, h1, h2⟩ => ⟨st, (key _ _ _).2 h1, h2⟩⟩

/-- The three loops of one pass do what the single loop does. -/
theorem C58_pass (solve : Solver (ZMod q)) (N : ND (ZMod q)) (p : Nat) (T : List (MonMap (ZMod q)))
    (ei : IVec) (m prec e : Nat) (sched : Nat → Nat → List Nat) (hs : ∀ e k, List.Perm (sched e k) (List.range k))
    (st st' : FrobState (ZMod q)) :
    frobPassNDThreads sched solve N p T ei m prec e st = .ok st' ↔
      frobPassND (varNDFlint solve N p) solve N p T ei m prec e st = .ok st' :=
  flint_pass hs

/-- **C58.**  If one thread returns, several threads return whatever the schedules, and two schedules give the same
vector and the same table of powers. -/
theorem C58_schedules (solve : Solver (ZMod q)) (N : ND (ZMod q)) (p : Nat) (T : List (MonMap (ZMod q)))
    (coord prec : Nat) (s1 s2 : Nat → Nat → List Nat) (h1 : ∀ e k, List.Perm (s1 e k) (List.range k))
    (h2 : ∀ e k, List.Perm (s2 e k) (List.range k)) (r : CVec (ZMod q) × List (MonMap (ZMod q))) :
    frobNDFlintThreads s1 solve N p T coord prec = .ok r ↔ frobNDFlintThreads s2 solve N p T coord prec = .ok r :=
  (C58_threads_ND solve N p T coord prec s1 h1 r).trans (C58_threads_ND solve N p T coord prec s2 h2 r).symm

/-- Not vacuous: for `x^3 + y^3` modulo 8 the function returns with the iterations executed backwards. -/
example : ∃ la : LinAlg (ZMod 2), ∃ N : ND (ZMod (2 ^ 3)), ∃ T r,
    N.basis[0]? = some [0, 1] ∧ (∀ k : Nat, List.Perm ((List.range k).reverse) (List.range k)) ∧
    frobNDFlintThreads (fun _ k => (List.range k).reverse) (padicSolver 2 3 la true 3) N 2 T 0 1 = .ok r := by
  obtain ⟨la, hla⟩ := exists_linAlg (ZMod 2)
  obtain ⟨N, h, hb⟩ := exBinary_padicND la hla true
  obtain ⟨T, hT, -⟩ := C29_fpow_table h.wf h.hom [3, 1]
  have hc : N.basis[0]? = some [0, 1] := by rw [hb]; rfl
  have hd : ∀ j, j < 1 → (djm (poleOrder 1 3 [0, 1]) 1 j).natAbs < 2 ^ 63 := by decide +kernel
  have hp : Fact (Nat.Prime 2) := ⟨Nat.prime_two⟩
  obtain ⟨r, hr⟩ := (C49_frob_ND_flint_partial (p := 2) (K := 3) (by norm_num) h (by norm_num)
    (Or.inr (Or.inl (by norm_num))) 0 1 _ hc (by norm_num) hd _ T hT).2.1 (by decide +kernel)
  exact ⟨la, N, T, r, hc, fun k => List.reverse_perm _,
    (C58_threads_ND _ _ _ _ _ _ _ (fun e k => List.reverse_perm _) _).2 hr⟩

end

end Verif
