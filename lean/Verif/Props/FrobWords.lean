import Verif.Model.FrobWords
import Verif.Props.NDWords
import Verif.Props.FlintRun

/-!
C86: `frob_ND_flint` with its reductions in machine words.
-/

namespace Verif

open Spec

theorem mapM_ub {α β : Type} (f : α → Res β) (l : List α) (h : ∀ x ∈ l, (∃ y, f x = .ok y) ∨ f x = .error .ub)
    (hx : ∃ x ∈ l, f x = .error .ub) : l.mapM f = .error .ub := by
  induction l with
  | nil => simp at hx
  | cons a l ih =>
    rw [List.mapM_cons]
    rcases h a (by simp) with ⟨y, hy⟩ | hy
    · rw [hy, Res.bind_ok, ih (fun x hm => h x (by simp [hm])) ?_]
      · rfl
      · obtain ⟨x, hm, e⟩ := hx
        rcases List.mem_cons.1 hm with rfl | hm
        · rw [hy] at e
          cases e
        · exact ⟨x, hm, e⟩
    · rw [hy]
      rfl

section

variable {q : Nat}

/-- A vector that is too short: both read past its end. -/
theorem reduceND_short {n d : Nat} (hword : q < 2 ^ 64) {poly : Nat → CMat Int} (hc0 : (poly 0).cols = d) {k : Int}
    {G : CVec Int} (hG : G.len < d) (hGr : ∀ i, RedWord q (G.e i)) {junk junk' : List Nat} :
    reduceNDWords q n poly k G junk junk' = .error .ub ∧ reduceVectorNDPolyFlint q n poly k G = .error .ub := by
  have h1 : vecWords d G = .error .ub := by
    refine mapM_ub _ _ (fun i _ => ?_) ⟨G.len, List.mem_range.2 hG, ?_⟩
    · by_cases h : i < G.len
      · rw [CVec.at, if_pos h, Res.bind_ok, getUi_ok hword (hGr i)]
        exact Or.inl ⟨_, rfl⟩
      · rw [CVec.at, if_neg h]
        exact Or.inr rfl
    · rw [CVec.at, if_neg (lt_irrefl _)]
      rfl
  have h2 : nmodVec q d G = .error .ub := by rw [nmodVec, if_neg (fun h => absurd h.1 (by omega))]
  constructor
  · rw [reduceNDWords, hc0, h1]
    split <;> rfl
  · rw [reduceVectorNDPolyFlint, if_neg (by omega : ¬ 2 ^ 64 ≤ q), hc0]
    by_cases hlong : (n : Int) + 1 < k
    · rw [if_pos hlong, finiteDiff, hc0, decide_eq_true (show ((n + 2 : Nat) : Int) - 1 < k by push_cast; omega), check_true, Res.bind_ok,
        h2]
      rfl
    · rw [if_neg hlong]
      show (nmodVec q d G >>= _) = _
      rw [h2]
      rfl

theorem addTop_size {R : Type} [CommRing R] {row0 : Bool} {P M Q : CMat R} {c : R} (h : addTop row0 P c M = .ok Q) : Q.rows = P.rows ∧ Q.cols = P.cols := by
  rw [addTop] at h
  split at h
  · rw [addRow0] at h
    split at h
    · cases h
    · split at h
      · cases h
        exact ⟨rfl, rfl⟩
      · cases h
  · rw [addScaled] at h
    split at h
    · cases h
      exact ⟨rfl, rfl⟩
    · cases h

theorem ndPolys_size {R : Type} [CommRing R] {n d : Nat} {u : IVec} : ∀ (E : MonMap (CMat R)) {P Q : Nat → CMat R},
    (∀ i, (P i).rows = d ∧ (P i).cols = d) → E.foldlM (ndPolyAdd n u) P = .ok Q → ∀ i, (Q i).rows = d ∧ (Q i).cols = d := by
  intro E
  induction E with
  | nil =>
    intro P Q hP h
    cases h
    exact hP
  | cons e E ih =>
    intro P Q hP h
    rw [List.foldlM_cons, Res.bind_eq_ok] at h
    obtain ⟨P', h1, h2⟩ := h
    refine ih ?_ h2
    rw [ndPolyAdd] at h1
    split at h1
    · cases h1
    · rw [Res.bind_eq_ok] at h1
      obtain ⟨A, a1, a2⟩ := h1
      cases a2
      intro i
      dsimp only
      by_cases hi : i = (e.1.getD (n + 1) 0).toNat
      · rw [if_pos hi]
        obtain ⟨b1, b2⟩ := addTop_size a1
        exact ⟨b1.trans (hP _).1, b2.trans (hP _).2⟩
      · rw [if_neg hi]
        exact hP i

/-- `get_ND_poly_flint` gives square matrices with entries in `[0, q)`. -/
theorem getNDPolyZ_reduced [NeZero q] {solve : Solver (ZMod q)} {N : ND (ZMod q)} {u v : IVec} {poly : Nat → CMat Int}
    (h : getNDPolyZ solve N u v = .ok poly) (t : Nat) :
    ((poly t).rows = N.ndBasis.length ∧ (poly t).cols = N.ndBasis.length) ∧ ∀ i j, RedWord q ((poly t).e i j) := by
  simp only [getNDPolyZ, Res.bind_eq_ok] at h
  obtain ⟨-, -, -, -, -, -, E, -, P, h1, h2⟩ := h
  cases h2
  refine ⟨ndPolys_size E (fun _ => ⟨rfl, rfl⟩) h1 t, fun i j => ?_⟩
  have hq : (0 : Int) < q := by exact_mod_cast Nat.pos_of_ne_zero (NeZero.ne q)
  show RedWord q (if i < (P t).rows ∧ j < (P t).cols then (P t).e i j % (q : Int) else 0)
  split
  · exact ⟨Int.emod_nonneg _ hq.ne', Int.emod_lt_of_pos _ hq⟩
  · exact ⟨le_rfl, hq⟩

theorem batchWords_eq (hq : 2 ≤ q) {junk : Buffers} {solve : Solver (ZMod q)} {N : ND (ZMod q)} (hd : 0 < N.ndBasis.length)
    (hj : ∀ u v k G, (junk u v k G).1.length = N.ndBasis.length ∧ (junk u v k G).2.length = N.ndBasis.length)
    (u v : IVec) {k : Int} (hk : k ≤ q) {G : CVec Int} (hG : ∀ i, RedWord q (G.e i)) :
    batchWords junk solve N u v k G = batchFlint solve N u v k G := by
  haveI : NeZero q := ⟨by omega⟩
  rw [batchWords, batchFlint]
  cases hp : getNDPolyZ solve N u v with
  | error e => rfl
  | ok poly =>
    rw [Res.bind_ok, Res.bind_ok]
    by_cases hw : 2 ^ 64 ≤ q
    · rw [if_pos hw]
    · rw [if_neg hw]
      have hr := getNDPolyZ_reduced hp
      by_cases hl : N.ndBasis.length ≤ G.len
      · exact C85_reduce hq (by omega) hd (fun i _ => (hr i).1) (fun t _ i j _ _ => (hr t).2 i j) hk hl (fun i _ => hG i)
          (hj u v k G).1 (hj u v k G).2
      · obtain ⟨a, b⟩ := reduceND_short (n := N.n) (k := k) (junk := (junk u v k G).1) (junk' := (junk u v k G).2) (by omega) (hr 0).1.2
          (by omega) hG
        rw [a, b]

theorem liftZ_reduced [NeZero q] (x : ZMod q) : RedWord q (liftZ x) :=
  ⟨Int.natCast_nonneg _, by rw [liftZ]; exact_mod_cast ZMod.val_lt x⟩

theorem termWords_eq (hq : 2 ≤ q) {junk : Buffers} {solve : Solver (ZMod q)} {N : ND (ZMod q)} (hd : 0 < N.ndBasis.length)
    (hj : ∀ u v k G, (junk u v k G).1.length = N.ndBasis.length ∧ (junk u v k G).2.length = N.ndBasis.length) {p last : Nat} (hl : last ≤ q)
    (u v : IVec) (G : CVec (ZMod q)) :
    (varNDWords junk solve N p).term last u v G = (varNDFlint solve N p).term last u v G := by
  haveI : NeZero q := ⟨by omega⟩
  have : ndBatched (fun a b k G => batchWords junk solve N a b k G) p last u v (CVec.mk' G.len (fun i => liftZ (G.e i))) =
      ndBatched (fun a b k G => batchFlint solve N a b k G) p last u v (CVec.mk' G.len (fun i => liftZ (G.e i))) := by
    rw [ndBatched, ndBatched]
    congr 1
    funext dest
    rw [batchWords_eq hq hd hj dest v (by exact_mod_cast hl)]
    intro i
    show RedWord q (if i < G.len then _ else _)
    split
    · exact liftZ_reduced _
    · exact ⟨le_rfl, by have : 0 < q := by omega
                        exact_mod_cast this⟩
  show (do
    let r ← ndBatched (fun a b k G => batchWords junk solve N a b k G) p last u v (CVec.mk' G.len (fun i => liftZ (G.e i)))
    pure (r.1, CVec.mk' r.2.len (fun i => ((r.2.e i : Int) : ZMod q)))) = _
  rw [this]
  rfl

end

/-- **C86 (`frob_ND_flint` in machine words).**  For every modulus `q` from 2 on, every object with a nonempty list of cokernel
monomials, `p ≤ q`, every table of powers, coordinate and precision, and whatever the buffers hold when they
are allocated: `frob_ND_flint` with all its reductions carried out in machine words (C85) returns the vector and the table of the model
over `Z/q`, or fails in the same way.  The polynomial matrices of `get_ND_poly_flint` and all vectors handed to the reductions
are reduced, and no reduction is asked for more than `q` steps, so that FLINT never gets a word out of its range. -/
theorem C86_frob_words {q : Nat} (hq : 2 ≤ q) {junk : Buffers} (solve : Solver (ZMod q)) (N : ND (ZMod q)) (hd : 0 < N.ndBasis.length)
    (hj : ∀ u v k G, (junk u v k G).1.length = N.ndBasis.length ∧ (junk u v k G).2.length = N.ndBasis.length) {p : Nat} (hp : p ≤ q)
    (T : List (MonMap (ZMod q))) (coord prec : Nat) :
    frobNDWords junk solve N p T coord prec = frobNDFlint solve N p T coord prec := by
  have hterm : ∀ e m ei, frobTermND (varNDWords junk solve N p) solve N p e m ei = frobTermND (varNDFlint solve N p) solve N p e m ei := by
    intro e m ei
    funext s t
    rw [frobTermND, frobTermND]
    have h : ∀ v, (varNDWords junk solve N p).term (if 1 < e then p else p - 1) t.1 v t.2 =
        (varNDFlint solve N p).term (if 1 < e then p else p - 1) t.1 v t.2 := fun v =>
      termWords_eq hq hd hj (by split <;> omega) t.1 v t.2
    simp only [h]
    rfl
  have hpass : ∀ T ei m, frobPassND (varNDWords junk solve N p) solve N p T ei m prec = frobPassND (varNDFlint solve N p) solve N p T ei m prec := by
    intro T ei m
    funext e st
    rw [frobPassND, frobPassND, hterm]
    rfl
  rw [frobNDWords, frobNDFlint, frobFunND, frobFunND]
  simp only [frobCoreND, hpass]

/-- **C86 (constructed objects).**  For every object the constructor returns over `Z/p^K`, `K ≥ 1`: `frob_ND_flint` in machine words is
the model over `Z/p^K`. -/
theorem C86_constructed {p K : Nat} [hprime : Fact p.Prime] (hK : 1 ≤ K) {solve : Solver (ZMod (p ^ K))} {p' n d : Nat}
    {f : MonMap (ZMod (p ^ K))} {N : ND (ZMod (p ^ K))} (hC : ConstructedND solve p' f n d N) {junk : Buffers}
    (hj : ∀ u v k G, (junk u v k G).1.length = d ^ n ∧ (junk u v k G).2.length = d ^ n) (T : List (MonMap (ZMod (p ^ K)))) (coord prec : Nat) :
    frobNDWords junk solve N p T coord prec = frobNDFlint solve N p T coord prec := by
  have : NeZero (p ^ K) := ⟨pow_ne_zero _ hprime.out.ne_zero⟩
  obtain ⟨rfl, rfl, hI⟩ := hC.init
  have hc := hI.count
  exact C86_frob_words (Nat.one_lt_pow (by omega) hprime.out.one_lt) solve N
    (by rw [hc]; exact Nat.pow_pos (by have := hI.base.ok.hd; omega)) (fun u v k G => by rw [hc]; exact hj u v k G)
    (Nat.le_self_pow (by omega) p) T coord prec

/-- **C86 (the column of Frobenius; partial, as C49).**  With nested supports of the polynomial matrices and series coefficients below
`2^63`: what `frob_ND_flint` returns in machine words is the truncated series for Frobenius of the basis element, reduced to
the basis. -/
theorem C86_column_partial {p K : Nat} [hprime : Fact p.Prime] (hK : 1 ≤ K) {solve : Solver (ZMod (p ^ K))} {p' n d : Nat}
    {f : MonMap (ZMod (p ^ K))} {N : ND (ZMod (p ^ K))} (hC : ConstructedND solve p' f n d N) (hn : 1 ≤ n)
    (hfl : FlintBatchOK (p ^ K) p n d solve N) {junk : Buffers}
    (hj : ∀ u v k G, (junk u v k G).1.length = d ^ n ∧ (junk u v k G).2.length = d ^ n) (coord prec : Nat)
    (ei : IVec) (hc : N.basis[coord]? = some ei) (hprec : 1 ≤ prec)
    (hb : ∀ j, j < prec → (djm (poleOrder n d ei) prec j).natAbs < 2 ^ 63)
    (powers : List Int) (T : List (MonMap (ZMod (p ^ K)))) (hT : powers.foldlM (computeFpow f) (fpowStart n) = .ok T) :
    (∀ r, frobNDWords junk solve N p T coord prec = .ok r → r.1.len = N.basis.length ∧
      (powers ++ [(prec : Int) - 1]).foldlM (computeFpow f) (fpowStart n) = .ok r.2 ∧
      FrobColumn (toPoly (n + 1) f) d p N.basis (poleOrder n d ei) prec (ev n ei) r.1.e) ∧
    (¬ p ^ n ∣ (p * (poleOrder n d ei + prec - 1) - 1).factorial → ∃ r, frobNDWords junk solve N p T coord prec = .ok r) ∧
    (∀ err, frobNDWords junk solve N p T coord prec = .error err → err = .assertFail) := by
  rw [C86_constructed hK hC hj]
  exact C49_frob_ND_flint_partial hK hC hn hfl coord prec ei hc hprec hb powers T hT

local instance wordsPrime17 : Fact (Nat.Prime 17) := ⟨by norm_num⟩

/-- **C86 (the failing run).**  The Fermat cubic modulo 17 with the values of `default_args`: an assertion fails in machine words,
whatever the buffers hold. -/
theorem C86_default_args_wrong (la : LinAlg (ZMod 17)) (hla : LinAlgOK la) (flint : Bool) (precision : ℕ) (hprec : 1 ≤ precision)
    {junk : Buffers} (hj : ∀ u v k G, (junk u v k G).1.length = 9 ∧ (junk u v k G).2.length = 9) :
    ∃ N, ConstructedND (padicSolver 17 1 la flint precision) 17 (fermatCubic (17 ^ 1)) 2 3 N ∧
      frobNDWords junk (padicSolver 17 1 la flint precision) N 17 (fpowStart 2) 1 1 = .error .assertFail := by
  obtain ⟨N, hC, -, hf⟩ := fermat17_fails la hla flint precision hprec
  exact ⟨N, hC, by rw [C86_constructed le_rfl hC hj, hf]⟩

/-- Buffers with 7 in every word, and elimination routines as required. -/
example : ∃ (la : LinAlg (ZMod 17)) (junk : Buffers), LinAlgOK la ∧
    ∀ u v k G, (junk u v k G).1.length = 9 ∧ (junk u v k G).2.length = 9 := by
  obtain ⟨la, hla⟩ := exists_linAlg (ZMod 17)
  exact ⟨la, fun _ _ _ _ => (List.replicate 9 7, List.replicate 9 7), hla, fun _ _ _ _ => ⟨rfl, rfl⟩⟩

/-- For the column: `x^3 + y^3` modulo 8 with `p = 2`; the buffers hold 7 in every word. -/
example : ∃ la : LinAlg (ZMod 2), ∃ N, ConstructedND (padicSolver 2 3 la true 3) 2 exBinary 1 3 N ∧
    FlintBatchOK (2 ^ 3) 2 1 3 (padicSolver 2 3 la true 3) N ∧
    ∃ T, ∀ err, frobNDWords (fun _ _ _ _ => (List.replicate 3 7, List.replicate 3 7)) (padicSolver 2 3 la true 3) N 2 T 0 2 = .error err →
      err = .assertFail := by
  haveI : Fact (Nat.Prime 2) := ⟨Nat.prime_two⟩
  obtain ⟨la, hla⟩ := exists_linAlg (ZMod 2)
  obtain ⟨N, h, hb⟩ := exBinary_padicND la hla true
  obtain ⟨T, hT, -⟩ := C29_fpow_table h.wf h.hom [3, 1]
  have hfl : FlintBatchOK (2 ^ 3) 2 1 3 (padicSolver 2 3 la true 3) N := Or.inr (Or.inl (by norm_num))
  exact ⟨la, N, h, hfl, T, (C86_column_partial (K := 3) (by norm_num) h (by norm_num) hfl (fun _ _ _ _ => ⟨rfl, rfl⟩) 0 2 [0, 1]
    (by rw [hb]; rfl) (by norm_num) (by decide +kernel) [3, 1] T hT).2.2⟩

end Verif
