import Verif.Lemmas.CacheNDFrob
import Verif.Props.Cache
import Verif.Props.FrobMatrixND

/-!
Property C52: the dictionaries of `de_Rham_non_degenerate_local` never change what a call returns, including the
Frobenius functions and `frob_matrix_ND`.
-/

namespace Verif

open Spec MvPolynomial

section

variable {q : Nat} {solve : Solver (ZMod q)} {p n d : Nat} {f : MonMap (ZMod q)} {N : ND (ZMod q)}

theorem cokEq_of (hC : ConstructedND solve p f n d N) : CokEq solve N := by
  obtain ⟨rfl, rfl, hI⟩ := hC.init
  exact getCokND_eq hC.solver hI.base.ok (fun i hi => hI.block i hi)

/-- The state after a sequence of calls on a new object. -/
theorem ndReached_ok (hC : ConstructedND solve p f n d N) {sm : Bool} {pre : List (NDCall q)} {outs : List (NDOut q)}
    {st : NDCache q} (hpre : runCallsND solve N sm pre (NDCache.empty q) = .ok (outs, st)) : NDCacheOK solve N st := by
  obtain ⟨h1, h2⟩ := nsim_calls (cokEq_of hC) sm pre _ ndCacheOK_empty
  cases hv : pre.mapM (fun c => c.value solve N) with
  | error e => rw [h2 e hv] at hpre; cases hpre
  | ok a =>
    obtain ⟨st', e, h⟩ := h1 a hv
    rw [e] at hpre
    cases hpre
    exact h

/-- **C52.**  On a constructed object, after any sequence `pre` of calls on a new object, run with either setting of
`save_memory`, a call returns exactly (value or failure) what it returns when all dictionaries are empty, under
either setting. -/
theorem C52_history (hC : ConstructedND solve p f n d N) (sm sm' : Bool) (pre : List (NDCall q))
    (outs : List (NDOut q)) (st : NDCache q) (hpre : runCallsND solve N sm pre (NDCache.empty q) = .ok (outs, st))
    (c : NDCall q) : (c.run solve N sm st).map Prod.fst = c.fresh solve N sm' := by
  rw [NDCall.fresh, (nsim_call (cokEq_of hC) sm c).map_fst (ndReached_ok hC hpre),
    (nsim_call (cokEq_of hC) sm' c).map_fst ndCacheOK_empty]

/-- **C52, the values.**  The value is the one of the functions without dictionaries, so that the theorems about
those (C32 to C37, C49 to C51) are statements about the values returned by every call in every sequence. -/
theorem C52_value (hC : ConstructedND solve p f n d N) (sm : Bool) (c : NDCall q) :
    c.fresh solve N sm = c.value solve N := by
  rw [NDCall.fresh, (nsim_call (cokEq_of hC) sm c).map_fst ndCacheOK_empty]

/-- **C52, whole sequences.**  A sequence of calls on one object returns the list of values which the calls return on
separate new objects; it fails exactly when one of them does, and as the first one that does. -/
theorem C52_sequence (hC : ConstructedND solve p f n d N) (sm sm' : Bool) (cs : List (NDCall q)) :
    (runCallsND solve N sm cs (NDCache.empty q)).map Prod.fst = cs.mapM (fun c => c.fresh solve N sm') := by
  rw [(nsim_calls (cokEq_of hC) sm cs).map_fst ndCacheOK_empty]
  congr 1
  funext c
  rw [C52_value hC]

/-- **C52, order.**  If a sequence of calls completes, then every rearrangement completes, under either setting of
`save_memory`, and each call returns the same value. -/
theorem C52_order (hC : ConstructedND solve p f n d N) (sm sm' : Bool) (cs cs' : List (NDCall q))
    (hp : cs.Perm cs') (outs : List (NDOut q)) (st : NDCache q)
    (h : runCallsND solve N sm cs (NDCache.empty q) = .ok (outs, st)) :
    ∃ outs' st', runCallsND solve N sm' cs' (NDCache.empty q) = .ok (outs', st') ∧
      (cs.zip outs).Perm (cs'.zip outs') := by
  have h1 := C52_sequence hC sm sm cs
  have h2 := C52_sequence hC sm' sm cs'
  rw [h] at h1
  obtain ⟨outs', h3, hperm⟩ := mapM_perm hp h1.symm
  rw [h3] at h2
  cases hr : runCallsND solve N sm' cs' (NDCache.empty q) with
  | error e => rw [hr] at h2; cases h2
  | ok x =>
    rw [hr] at h2
    obtain ⟨o, st'⟩ := x
    have : o = outs' := Except.ok.inj h2
    subst this
    exact ⟨o, st', rfl, hperm⟩

/-- **C52, one level.**  `get_inclusion_matrix_ND(u, l)`, which computes the matrices of all levels, returns the matrix
of the level asked for. -/
theorem C52_inclusion (hC : ConstructedND solve p f n d N) (sm : Bool) (u : IVec) (hu : IsTuple (n + 1) d u)
    (hpos : ∀ x ∈ u, 0 < x) (l : Nat) (hl : l < n) :
    ∃ M, inclMatND solve N u l = .ok M ∧ (NDCall.incl u l : NDCall q).fresh solve N sm = .ok (.mat M) := by
  obtain ⟨rfl, rfl, hI⟩ := hC.init
  have hall : u.all (fun x => decide (0 < x)) = true := by
    rw [List.all_eq_true]; intro x hx; simpa using hpos x hx
  have hsum : sumVec u = N.d := by rw [sumVec_eq_sum]; exact hu.2.2
  have hlev : ∀ l, l < N.n → ∃ M, inclMatND solve N u l = .ok M := fun l hl => by
    obtain ⟨_, M, _, _, h, _⟩ := inclMatND_ok hC.solver hI.base.ok hu hpos hl (hI.block l (by omega))
    exact ⟨M, h⟩
  obtain ⟨Ms, e, -, hMs⟩ := inclsND_ok (solve := solve) hall hsum hlev
  obtain ⟨M, hM⟩ := hlev l hl
  refine ⟨M, hM, ?_⟩
  rw [C52_value hC, NDCall.value, getInclND, check_pos hall, Res.bind_ok, check_pos (by simpa using hsum), Res.bind_ok,
    check_pos (by simpa using hl), Res.bind_ok, e, Res.bind_ok, hMs l hl, hM]
  rfl

theorem everythingJ_value [Fact (1 < q)] (hC : ConstructedND solve p f n d N) (hn : 1 ≤ n) :
    (JCall.everything : JCall q).value solve N.toDR = .ok .unit := by
  obtain ⟨rfl, rfl, hI⟩ := hC.init
  have hD := hI.base.ok
  have hd := hD.hd
  obtain ⟨Ld, hLd, eLd, -⟩ := N.list_ok hD N.d (by omega) (by nlinarith)
  obtain ⟨Ln, hLn, eLn, -⟩ := N.list_ok hD N.n (by omega) (by nlinarith)
  obtain ⟨_, M, _, eM, -⟩ := finalMatJ_ok hC.solver hD hI.base.basis N.n hn le_rfl
  rw [JCall.value, eLd, Res.bind_ok, forM_ok, Res.bind_ok, eLn, Res.bind_ok, forM_ok, Res.bind_ok, eM]
  · rfl
  · intro u hu
    have hu := (hLn.2 u).1 hu
    obtain ⟨_, _, M, _, _, _, _, e, _⟩ := inclMatJ_ok hD hn hu.1 hu.2.2
    rw [e]; rfl
  · intro v hv
    obtain ⟨_, _, _, _, e⟩ := freshRedJ_ok hC.solver hD hI.base.top ((hLd.2 v).1 hv)
    rw [e]; rfl

theorem compCokND_ok [Fact (1 < q)] (hC : ConstructedND solve p f n d N) (hn : 1 ≤ n) {u : IVec}
    (hu : IsTuple (n + 1) d u) (hpos : ∀ x ∈ u, 0 < x) : ∃ M, compCokND solve N u = .ok M := by
  have hc := cokEq_of hC
  obtain ⟨rfl, rfl, hI⟩ := hC.init
  have : Nontrivial (ZMod q) := ZMod.nontrivial q
  have hall : u.all (fun x => decide (0 < x)) = true := by
    rw [List.all_eq_true]; intro x hx; simpa using hpos x hx
  have hsum : sumVec u = N.d := by rw [sumVec_eq_sum]; exact hu.2.2
  obtain ⟨M, hM, -⟩ := cokernelsToBasis_ok hC.solver hI.base.ok hI.base.top hI.base.basis hn hI.blocks
    (fun i hi => hI.block i hi) hu hpos
  rw [← hc, getCokND, check_pos hall, Res.bind_ok, check_pos (by simpa using hsum), Res.bind_ok] at hM
  exact ⟨M, hM⟩

/-- What the loop of `compute_everything_ND` computes. -/
theorem everyND_ok [Fact (1 < q)] (hC : ConstructedND solve p f n d N) (hn : 1 ≤ n) (hn' : n ≤ 61) {u : IVec}
    (hu : IsTuple (n + 1) d u) : everyND solve N u = .ok () := by
  have hcok : (∀ x ∈ u, 0 < x) → ∃ M, compCokND solve N u = .ok M := compCokND_ok hC hn hu
  obtain ⟨rfl, rfl, hI⟩ := hC.init
  have hN := hI.nd hn
  obtain ⟨Ms, e, hRES, -⟩ := redMatND_ok hC.solver hN hu
  obtain ⟨E, e2, -⟩ := redMatNDPoly_ok hn' (by
    have h1 := hI.count
    have h2 := hI.base.ok.hd
    have : 0 < N.d ^ N.n := Nat.pow_pos (by omega)
    omega) hu.1 e hRES
  rw [everyND, e, Res.bind_ok, e2, Res.bind_ok]
  by_cases hp : u.all (fun x => decide (0 < x)) = true
  · have hpos : ∀ x ∈ u, 0 < x := fun x hx => by simpa using List.all_eq_true.1 hp x hx
    obtain ⟨Ms', e3, -⟩ := inclsND_ok (solve := solve) hp (by rw [sumVec_eq_sum]; exact hu.2.2) (fun l hl => by
      obtain ⟨_, M, _, _, h, _⟩ := inclMatND_ok hC.solver hI.base.ok hu hpos hl (hI.block l (by omega))
      exact ⟨M, h⟩)
    obtain ⟨M, e4⟩ := hcok hpos
    rw [if_pos hp, e3, Res.bind_ok, e4]
    rfl
  · rw [if_neg hp]; rfl

/-- **C52, filling the dictionaries.**  On every constructed object with `1 ≤ n ≤ 61` the function
`compute_everything_ND` completes after any sequence of calls that completed, and afterwards every call still returns
its value. -/
theorem C52_everything [Fact (1 < q)] (hC : ConstructedND solve p f n d N) (hn : 1 ≤ n) (hn' : n ≤ 61)
    (sm : Bool) (pre : List (NDCall q)) (outs : List (NDOut q)) (st : NDCache q)
    (hpre : runCallsND solve N sm pre (NDCache.empty q) = .ok (outs, st)) (J ndZZ : Bool) :
    ∃ st', NDCall.run solve N sm (.everything J ndZZ) st = .ok (.unit, st') ∧
      ∀ c : NDCall q, (c.run solve N sm st').map Prod.fst = c.fresh solve N sm := by
  have hv : (NDCall.everything J ndZZ : NDCall q).value solve N = .ok .unit := by
    have hJ := everythingJ_value hC hn
    have hev : ∀ u, IsTuple (n + 1) d u → everyND solve N u = .ok () := fun u hu => everyND_ok hC hn hn' hu
    obtain ⟨rfl, rfl, hI⟩ := hC.init
    obtain ⟨Ld, hLd, eLd, -⟩ := N.list_ok hI.base.ok N.d (by omega) (by have := hI.base.ok.hd; nlinarith)
    have hall : forM Ld (everyND solve N) = .ok () := forM_ok (fun u hu => hev u ((hLd.2 u).1 hu))
    rw [NDCall.value, hJ, eLd]
    cases J <;> simp [hall]
  obtain ⟨h1, -⟩ := nsim_call (cokEq_of hC) sm (.everything J ndZZ) st (ndReached_ok hC hpre)
  obtain ⟨st', e, hst'⟩ := h1 _ hv
  refine ⟨st', e, fun c => ?_⟩
  rw [(nsim_call (cokEq_of hC) sm c).map_fst hst', C52_value hC]

end

local instance : Fact (Nat.Prime 5) := ⟨by norm_num⟩

/-- A sequence that completes and uses the dictionaries several times, with Frobenius calls: the cubic modulo 25. -/
example : ∃ la : LinAlg (ZMod 5), ∃ N : ND (ZMod (5 ^ 2)),
    ConstructedND (padicSolver 5 2 la true 2) 5 exCubic 1 3 N ∧ ∃ T, ∃ outs st,
      runCallsND (padicSolver 5 2 la true 2) N true
        [.everything true true, .monomial [5, 4], .frobZ 5 .mat T 1 1, .everything false false, .incl [1, 2] 0,
          .frobP 5 true T 1 1, .monomial [4, 5]]
        (NDCache.empty _) = .ok (outs, st) := by
  have : Fact (1 < 5 ^ 2) := ⟨by norm_num⟩
  have : Nontrivial (ZMod (5 ^ 2)) := ZMod.nontrivial _
  obtain ⟨la, hla⟩ := exists_linAlg (ZMod 5)
  obtain ⟨N, h, hb⟩ := exCubic_padicND_basis la hla true
  obtain ⟨T, hT, -⟩ := C29_fpow_table h.wf h.hom [3, 1]
  have hc : N.basis[1]? = some [1, 0] := by rw [hb]; rfl
  have hd : ∀ j, j < 1 → (djm (poleOrder 1 3 [1, 0]) 1 j).natAbs < 2 ^ 63 := by decide +kernel
  refine ⟨la, N, h, T, ?_⟩
  have he : ∀ J z, (NDCall.everything J z : NDCall (5 ^ 2)).fresh (padicSolver 5 2 la true 2) N true = .ok .unit := by
    intro J z
    obtain ⟨st, e, -⟩ := C52_everything h (by norm_num) (by norm_num) true [] [] _ rfl J z
    rw [NDCall.fresh, e]; rfl
  obtain ⟨M, -, hM⟩ := C52_inclusion h true [1, 2] (by unfold IsTuple NonNeg deg; decide) (by decide) 0 (by decide)
  obtain ⟨H1, hH1, -⟩ := C48_monomial_to_basis_ND h (by norm_num) [5, 4] rfl (by decide) 3 (by decide)
  obtain ⟨H2, hH2, -⟩ := C48_monomial_to_basis_ND h (by norm_num) [4, 5] rfl (by decide) 3 (by decide)
  obtain ⟨r1, hr1⟩ := (C49_frob_ND_ZZ (by norm_num) h (by norm_num) .mat 1 1 _ hc (by norm_num) hd _ T hT).2.1
    (by decide +kernel)
  obtain ⟨r2, hr2⟩ := (C49_frob_ND_ZZ_p (by norm_num) h (by norm_num) true 1 1 _ hc (by norm_num) hd _ T hT).2.1
    (by decide +kernel)
  have e1 : (NDCall.monomial [5, 4] : NDCall (5 ^ 2)).fresh (padicSolver 5 2 la true 2) N true = .ok (.vec H1) := by
    rw [C52_value h, NDCall.value, hH1]; rfl
  have e2 : (NDCall.monomial [4, 5] : NDCall (5 ^ 2)).fresh (padicSolver 5 2 la true 2) N true = .ok (.vec H2) := by
    rw [C52_value h, NDCall.value, hH2]; rfl
  have e3 : (NDCall.frobZ 5 .mat T 1 1 : NDCall (5 ^ 2)).fresh (padicSolver 5 2 la true 2) N true = .ok (.frob r1) := by
    rw [C52_value h, NDCall.value, hr1]; rfl
  have e4 : (NDCall.frobP 5 true T 1 1 : NDCall (5 ^ 2)).fresh (padicSolver 5 2 la true 2) N true = .ok (.frob r2) := by
    rw [C52_value h, NDCall.value, hr2]; rfl
  have hs := C52_sequence h true true
    [.everything true true, .monomial [5, 4], .frobZ 5 .mat T 1 1, .everything false false, .incl [1, 2] 0,
      .frobP 5 true T 1 1, .monomial [4, 5]]
  simp only [List.mapM_cons, he, e1, e2, e3, e4, hM, List.mapM_nil, Res.bind_ok, Res.pure_eq] at hs
  cases hr : runCallsND (padicSolver 5 2 la true 2) N true
      [.everything true true, .monomial [5, 4], .frobZ 5 .mat T 1 1, .everything false false, .incl [1, 2] 0,
        .frobP 5 true T 1 1, .monomial [4, 5]] (NDCache.empty _) with
  | error e => rw [hr] at hs; cases hs
  | ok x => exact ⟨x.1, x.2, rfl⟩

end Verif
