import Verif.Lemmas.FrobNDMain
import Verif.Props.Frob
import Verif.Props.NDBatch

/-!
Properties C49 and C50: the Frobenius functions of the non-degenerate object, and the single reductions over
`ZZ` which they use.
-/

namespace Verif

open Spec MvPolynomial

/-! ### C50 -/

section

variable {q : Nat} [NeZero q] {solve : Solver (ZMod q)} {p n d : Nat} {f : MonMap (ZMod q)} {N : ND (ZMod q)}

/-- **C50 (matrices).**  Every object built by the constructor, every positive `u` of degree `m d` and every
direction `v`: `get_reduction_matrix_ND_ZZ(u, v)` returns an integer matrix which modulo `q` is the matrix
`get_reduction_matrix_ND(u, v)`. -/
theorem C50_matrix (hC : ConstructedND solve p f n d N) (hn : 1 ≤ n) (u v : IVec) (hv : IsTuple (n + 1) d v)
    (m : Int) (hu : u.sum = m * d) :
    ∃ MZ M, getReductionMatrixNDZ solve N u v = .ok MZ ∧ getReductionMatrixND solve N u v = .ok M ∧
      MZ.rows = d ^ n ∧ MZ.cols = d ^ n ∧ M.rows = d ^ n ∧ M.cols = d ^ n ∧
      ∀ r c, r < d ^ n → c < d ^ n → ((MZ.e r c : Int) : ZMod q) = M.e r c := by
  obtain ⟨rfl, rfl, hI⟩ := hC.init
  obtain ⟨gZ, g, a1, a2, a3⟩ := getReductionMatrixNDZ_ok hC.solver (hI.nd hn) hv hu
  rw [hI.count] at a1 a2 a3
  refine ⟨_, _, a1, a2, rfl, rfl, rfl, rfl, fun r c hr hc => ?_⟩
  rw [CMat.mk'_e _ hr hc, CMat.mk'_e _ hr hc]
  exact a3 r c hr hc

/-- **C50 (vectors).**  Same assumptions, and a vector `Z` of integers that modulo `q` is `G`:
`reduce_vector_ND_ZZ(u, v, Z)` never reads the first entry of an empty map, and returns a vector that modulo `q`
is `reduce_vector_ND(u, v, G)`, which is the matrix `get_reduction_matrix_ND(u, v)` times `G`. -/
theorem C50_vector (hC : ConstructedND solve p f n d N) (hn : 1 ≤ n) (hq : 1 < q) (u v : IVec)
    (hv : IsTuple (n + 1) d v) (m : Int) (hu : u.sum = m * d) (Z : CVec Int) (G : CVec (ZMod q))
    (hG : G.len = d ^ n) (hlen : Z.len = d ^ n) (hZ : ∀ i, i < d ^ n → ((Z.e i : Int) : ZMod q) = G.e i) :
    ∃ HZ H M, reduceVectorNDZ solve N u v Z = .ok HZ ∧ reduceVectorND solve N u v G = .ok H ∧
      getReductionMatrixND solve N u v = .ok M ∧
      HZ.len = d ^ n ∧ H.len = d ^ n ∧ (∀ i, i < d ^ n → ((HZ.e i : Int) : ZMod q) = H.e i) ∧
      ∀ i, i < d ^ n → H.e i = ∑ j ∈ Finset.range (d ^ n), M.e i j * G.e j := by
  haveI : Fact (1 < q) := ⟨hq⟩
  obtain ⟨M, m1, m2, m3, m4⟩ := C34_step_every_u hC hn u v m hu hv
  obtain ⟨rfl, rfl, hI⟩ := hC.init
  obtain ⟨HZ, H, a1, a2, a3, a4⟩ := reduceVectorNDZ_ok hC.solver (hI.nd hn) (n_le_of_size (hI.nd hn).dr.hd hC.size) hv hu
    (Z := Z) (G := G) (by rw [hG, hI.count]) ⟨by rw [hlen, hG], fun i hi => hZ i (by omega)⟩
  obtain ⟨H', b1, b2, b3, -⟩ := m4 G hG
  rw [a2] at b1
  obtain rfl := Except.ok.inj b1
  refine ⟨HZ, H, M, a1, a2, m1, by rw [a3.1, b3], b3, fun i hi => a3.2 i (by omega), fun i hi => ?_⟩
  obtain ⟨H', c1, -, c3⟩ := mulVec_ok M G (by rw [m3, hG])
  rw [b2] at c1
  obtain rfl := Except.ok.inj c1
  rw [c3 i (by omega), m3]

/-- The cubic, with `u` not positive and a vector of integers outside the range of residues. -/
example : ∃ N, ConstructedND exSolve 5 exCubic 1 3 N ∧ IsTuple (1 + 1) (3 : Nat) [2, 1] ∧
    ([-4, 10] : IVec).sum = 2 * (3 : Nat) ∧
    (∀ i, i < 3 ^ 1 → (((CVec.mk' 3 (fun i => (26 : Int) + i)).e i : Int) : ZMod 25) =
      (CVec.mk' 3 (fun i => (1 : ZMod 25) + i)).e i) ∧
    (reduceVectorNDZ exSolve N [-4, 10] [2, 1] (CVec.mk' 3 (fun i => (26 : Int) + i))).isOk = true := by
  obtain ⟨N, h, -⟩ := exCubic_constructedND
  have h1 : IsTuple (1 + 1) (3 : Nat) [2, 1] := by unfold IsTuple NonNeg deg; decide
  have h2 : ∀ i, i < 3 ^ 1 → (((CVec.mk' 3 (fun i => (26 : Int) + i)).e i : Int) : ZMod 25) =
      (CVec.mk' 3 (fun i => (1 : ZMod 25) + i)).e i := by decide +kernel
  refine ⟨N, h, h1, by decide, h2, ?_⟩
  obtain ⟨HZ, -, -, e, -⟩ := C50_vector h (by decide) (by decide) [-4, 10] [2, 1] h1 2 (by decide)
    (CVec.mk' 3 (fun i => (26 : Int) + i)) (CVec.mk' 3 (fun i => (1 : ZMod 25) + i)) rfl rfl h2
  rw [e]; rfl

end

/-! ### C49 -/

section

variable {p K : ℕ} [hprime : Fact p.Prime]

omit hprime in
theorem frobFunND_eq {q : Nat} {var : NDVar (ZMod q)} {scale : Nat → Nat → Nat → CVec (ZMod q) → Res (CVec (ZMod q))}
    {solve : Solver (ZMod q)} {N : ND (ZMod q)}
    {T T' : List (MonMap (ZMod q))} {coord prec : Nat} {ei : IVec} (hprec : 1 ≤ prec)
    (hc : N.basis[coord]? = some ei) (hd : 0 < N.d) (hp : 0 < p)
    (hT : computeFpow N.f T ((prec : Int) - 1) = .ok T') :
    frobFunND var scale solve N p T coord prec = (do
      let F ← frobCoreND var solve N p T' ei (poleOrder N.n N.d ei) prec
      let F' ← scale p N.n (p * (poleOrder N.n N.d ei + prec - 1) - 1) F
      pure (F', T')) := by
  rw [frobFunND, decide_eq_true (show 0 < prec from hprec), check_true, Res.bind_ok, aget, hc, Res.bind_ok, hT,
    Res.bind_ok, if_neg (by omega)]
  simp only [poleOrder_sumVec]

/-- The whole function, for a variant meeting the assumptions of the loops. -/
theorem frobFunND_class (hK : 1 ≤ K) {solve : Solver (ZMod (p ^ K))} {p' n d : Nat} {f : MonMap (ZMod (p ^ K))}
    {N : ND (ZMod (p ^ K))} (hC : ConstructedND solve p' f n d N) (hn : 1 ≤ n) {var : NDVar (ZMod (p ^ K))}
    {coord prec : Nat} {ei : IVec} (hc : N.basis[coord]? = some ei) (hprec : 1 ≤ prec)
    {lo : Nat → Fin (N.n + 1) → ℤ} (hv : NDVarOK N p (poleOrder n d ei) prec ei lo var)
    (powers : List Int) {T : List (MonMap (ZMod (p ^ K)))}
    (hT : powers.foldlM (computeFpow f) (fpowStart n) = .ok T) :
    (∀ r, frobFunND var frobScale solve N p T coord prec = .ok r → r.1.len = N.basis.length ∧
      (powers ++ [(prec : Int) - 1]).foldlM (computeFpow f) (fpowStart n) = .ok r.2 ∧
      FrobColumn (toPoly (n + 1) f) d p N.basis (poleOrder n d ei) prec (ev n ei) r.1.e) ∧
    (¬ p ^ n ∣ (p * (poleOrder n d ei + prec - 1) - 1).factorial →
      ∃ r, frobFunND var frobScale solve N p T coord prec = .ok r) ∧
    (∀ err, frobFunND var frobScale solve N p T coord prec = .error err → err = .assertFail) := by
  have hp : p.Prime := hprime.out
  have := nontrivial_pow (p := p) hK
  obtain ⟨S, t1, t2, -, -⟩ := fpowCalls_ok hC.wf hC.hom powers (tableOK_start n d f)
  rw [hT] at t1
  obtain rfl := Except.ok.inj t1
  obtain ⟨S', u1, u2, u3, -⟩ := computeFpow_ok hC.wf hC.hom t2 ((prec : Int) - 1)
  obtain ⟨F, a1, a2, ⟨c, a3, a4⟩, -⟩ := frobCoreND_class hC hn hp.one_lt.le hc hprec hv u2 (by omega)
  obtain ⟨e1, e2, hI⟩ := hC.init
  have hd := (hI.nd (by omega)).dr.hd
  have hfun := frobFunND_eq (var := var) (scale := frobScale) (solve := solve) (p := p) hprec hc (by omega) hp.pos
    (by rw [hI.base.f_eq]; exact u1)
  rw [e1, e2, a1, Res.bind_ok] at hfun
  obtain ⟨s1, s2, s3⟩ := frobScale_ok (a := p * (poleOrder n d ei + prec - 1) - 1) hp hn F
  rw [hfun]
  refine ⟨fun r hr => ?_, fun h => ?_, fun err h => ?_⟩
  · rw [Res.bind_eq_ok] at hr
    obtain ⟨F', b1, b2⟩ := hr
    obtain rfl := Except.ok.inj b2
    obtain ⟨c1, c2⟩ := s1 F' b1
    refine ⟨by rw [← a2]; exact c1, ?_, ?_⟩
    · rw [List.foldlM_append, hT, Res.bind_ok, List.foldlM_cons, u1]; rfl
    · subst e1 e2
      have hf : DRpoly N.toDR = toPoly (N.n + 1) f := by rw [DRpoly, hI.base.f_eq]
      rw [← hf]
      exact column_of_loops (D := N.toDR) (basis_pole hI.base.basis (by have := hI.base.ok.hd; omega) hc).1 hprec a3 a4
        (fun i hi => c2 i (by rw [a2]; exact hi))
  · obtain ⟨F', hF'⟩ := s2 h
    exact ⟨(F', _), by rw [hF', Res.bind_ok]; rfl⟩
  · cases hF : frobScale p n (p * (poleOrder n d ei + prec - 1) - 1) F with
    | error err' =>
      rw [hF, Res.bind_error] at h
      obtain rfl := Except.error.inj h
      exact s3 _ hF
    | ok F' => rw [hF, Res.bind_ok] at h; cases h

theorem frobNDFlint_eq (solve : Solver (ZMod (p ^ K))) (N : ND (ZMod (p ^ K))) (T : List (MonMap (ZMod (p ^ K))))
    (coord prec : Nat) :
    frobNDFlint solve N p T coord prec = frobFunND (varNDFlint solve N p) frobScale solve N p T coord prec := by
  have hs : (frobScalePAdic : Nat → Nat → Nat → CVec (ZMod (p ^ K)) → _) p = frobScale p := by
    funext n a F
    exact frobScalePAdic_eq hprime.out n a F
  unfold frobNDFlint frobFunND
  rw [hs]

/-- The variants of the code meet the assumptions of the loops. -/
theorem frobND_var (hK : 1 ≤ K) {solve : Solver (ZMod (p ^ K))} {p' n d : Nat} {f : MonMap (ZMod (p ^ K))}
    {N : ND (ZMod (p ^ K))} (hC : ConstructedND solve p' f n d N) (hn : 1 ≤ n) {coord prec : Nat}
    {ei : IVec} (hc : N.basis[coord]? = some ei)
    (hb : ∀ j, j < prec → (djm (poleOrder n d ei) prec j).natAbs < 2 ^ 63) {var : NDVar (ZMod (p ^ K))}
    (hvar : (∃ kind, var = varNDZ solve N p kind) ∨ (∃ batched, var = varNDP solve N p batched) ∨
      var = varNDFlint solve N p ∧ FlintBatchOK (p ^ K) p n d solve N) :
    ∃ lo : Nat → Fin (N.n + 1) → ℤ, NDVarOK N p (poleOrder n d ei) prec ei lo var := by
  have : NeZero (p ^ K) := ⟨pow_ne_zero _ hprime.out.ne_zero⟩
  obtain ⟨e1, e2, hI⟩ := hC.init
  obtain ⟨m1, -, m3⟩ := basis_pole hI.base.basis (by have := hI.base.ok.hd; omega) hc
  rw [e1, e2] at m1
  rcases hvar with ⟨kind, rfl⟩ | ⟨batched, rfl⟩ | ⟨rfl, hfl⟩
  · exact ⟨_, varNDZ_ok hC hn (Nat.one_lt_pow (by omega) hprime.out.one_lt) p kind m1 m3.2.1 hb⟩
  · exact ⟨_, varNDP_ok hC hn p batched m1 m3.2.1 hb⟩
  · exact ⟨_, varNDFlint_ok hC hn (Nat.one_lt_pow (by omega) hprime.out.one_lt)
      (Nat.le_self_pow (by omega) p) hfl m1 m3.1 m3.2.1 (by rw [← e1, ← e2]; exact m3.2.2) hb⟩

/-- **C49 (`frob_ND_ZZ`).**  Every object built by the constructor, every basis element `x^b` of pole order `m`,
every `N >= 1`, every `loop` (0, 1, 2), every table of powers left by earlier calls, every prime: if the
coefficients `D_{j,m}` fit into 64 bits, the call returns unless its exact division fails; a returned vector `F` is
the column of `b` (`FrobColumn`, see `C47_column_class`): the coordinates of
`p^(n-1) Σ_{j<N} D_{j,m} f^j(x^p) x^(p(b+1)-1) Ω / f^(p(m+j))`.
No assertion on the way fails, and the direction searches end. -/
theorem C49_frob_ND_ZZ (hK : 1 ≤ K) {solve : Solver (ZMod (p ^ K))} {p' n d : Nat} {f : MonMap (ZMod (p ^ K))}
    {N : ND (ZMod (p ^ K))} (hC : ConstructedND solve p' f n d N) (hn : 1 ≤ n) (kind : LoopKind) (coord prec : Nat)
    (ei : IVec) (hc : N.basis[coord]? = some ei) (hprec : 1 ≤ prec)
    (hb : ∀ j, j < prec → (djm (poleOrder n d ei) prec j).natAbs < 2 ^ 63)
    (powers : List Int) (T : List (MonMap (ZMod (p ^ K))))
    (hT : powers.foldlM (computeFpow f) (fpowStart n) = .ok T) :
    (∀ r, frobNDZ solve N p kind T coord prec = .ok r → r.1.len = N.basis.length ∧
      (powers ++ [(prec : Int) - 1]).foldlM (computeFpow f) (fpowStart n) = .ok r.2 ∧
      FrobColumn (toPoly (n + 1) f) d p N.basis (poleOrder n d ei) prec (ev n ei) r.1.e) ∧
    (¬ p ^ n ∣ (p * (poleOrder n d ei + prec - 1) - 1).factorial →
      ∃ r, frobNDZ solve N p kind T coord prec = .ok r) ∧
    (∀ err, frobNDZ solve N p kind T coord prec = .error err → err = .assertFail) := by
  have : NeZero (p ^ K) := ⟨pow_ne_zero _ hprime.out.ne_zero⟩
  obtain ⟨e1, e2, hI⟩ := hC.init
  obtain ⟨m1, -, m3⟩ := basis_pole hI.base.basis (by have := hI.base.ok.hd; omega) hc
  rw [e1, e2] at m1
  exact frobFunND_class hK hC hn hc hprec
    (varNDZ_ok hC hn (Nat.one_lt_pow (by omega) hprime.out.one_lt) p kind m1 m3.2.1 hb) powers hT

/-- **C49 (`frob_ND_ZZ_p`).**  The same for `frob_ND_ZZ_p` with `loop = 0` or `1`. -/
theorem C49_frob_ND_ZZ_p (hK : 1 ≤ K) {solve : Solver (ZMod (p ^ K))} {p' n d : Nat} {f : MonMap (ZMod (p ^ K))}
    {N : ND (ZMod (p ^ K))} (hC : ConstructedND solve p' f n d N) (hn : 1 ≤ n) (batched : Bool) (coord prec : Nat)
    (ei : IVec) (hc : N.basis[coord]? = some ei) (hprec : 1 ≤ prec)
    (hb : ∀ j, j < prec → (djm (poleOrder n d ei) prec j).natAbs < 2 ^ 63)
    (powers : List Int) (T : List (MonMap (ZMod (p ^ K))))
    (hT : powers.foldlM (computeFpow f) (fpowStart n) = .ok T) :
    (∀ r, frobNDP solve N p batched T coord prec = .ok r → r.1.len = N.basis.length ∧
      (powers ++ [(prec : Int) - 1]).foldlM (computeFpow f) (fpowStart n) = .ok r.2 ∧
      FrobColumn (toPoly (n + 1) f) d p N.basis (poleOrder n d ei) prec (ev n ei) r.1.e) ∧
    (¬ p ^ n ∣ (p * (poleOrder n d ei + prec - 1) - 1).factorial →
      ∃ r, frobNDP solve N p batched T coord prec = .ok r) ∧
    (∀ err, frobNDP solve N p batched T coord prec = .error err → err = .assertFail) := by
  obtain ⟨e1, e2, hI⟩ := hC.init
  obtain ⟨m1, -, m3⟩ := basis_pole hI.base.basis (by have := hI.base.ok.hd; omega) hc
  rw [e1, e2] at m1
  exact frobFunND_class hK hC hn hc hprec (varNDP_ok hC hn p batched m1 m3.2.1 hb) powers hT

/-- **C49 (`frob_ND_flint`, so `frob_ND`).**  The same for `frob_ND_flint`, as long as its batched reductions are
right: when `2^64 <= q`, or `p <= n+1` (both avoid the finite differences), or the polynomials of matrices have
non-zero, nested supports.  Missing for the full statement: the other polynomials, for which the finite
differences can be wrong (`C35_flint_wrong`, `C36`). -/
theorem C49_frob_ND_flint_partial (hK : 1 ≤ K) {solve : Solver (ZMod (p ^ K))} {p' n d : Nat}
    {f : MonMap (ZMod (p ^ K))}
    {N : ND (ZMod (p ^ K))} (hC : ConstructedND solve p' f n d N) (hn : 1 ≤ n)
    (hfl : FlintBatchOK (p ^ K) p n d solve N) (coord prec : Nat)
    (ei : IVec) (hc : N.basis[coord]? = some ei) (hprec : 1 ≤ prec)
    (hb : ∀ j, j < prec → (djm (poleOrder n d ei) prec j).natAbs < 2 ^ 63)
    (powers : List Int) (T : List (MonMap (ZMod (p ^ K))))
    (hT : powers.foldlM (computeFpow f) (fpowStart n) = .ok T) :
    (∀ r, frobNDFlint solve N p T coord prec = .ok r → r.1.len = N.basis.length ∧
      (powers ++ [(prec : Int) - 1]).foldlM (computeFpow f) (fpowStart n) = .ok r.2 ∧
      FrobColumn (toPoly (n + 1) f) d p N.basis (poleOrder n d ei) prec (ev n ei) r.1.e) ∧
    (¬ p ^ n ∣ (p * (poleOrder n d ei + prec - 1) - 1).factorial →
      ∃ r, frobNDFlint solve N p T coord prec = .ok r) ∧
    (∀ err, frobNDFlint solve N p T coord prec = .error err → err = .assertFail) := by
  have : NeZero (p ^ K) := ⟨pow_ne_zero _ hprime.out.ne_zero⟩
  obtain ⟨e1, e2, hI⟩ := hC.init
  obtain ⟨m1, -, m3⟩ := basis_pole hI.base.basis (by have := hI.base.ok.hd; omega) hc
  have h5 := frobFunND_class hK hC hn hc hprec (varNDFlint_ok hC hn (Nat.one_lt_pow (by omega) hprime.out.one_lt)
    (Nat.le_self_pow (by omega) p) hfl (by rw [← e1, ← e2]; exact m1) m3.1 m3.2.1 (by rw [← e1, ← e2]; exact m3.2.2) hb) powers hT
  rw [frobNDFlint_eq]
  exact h5

/-- **C49 (the sum before the factors are divided out).**  Same assumptions: the vector computed by the loops of
any of the functions is the coordinate vector of the series times the factorial, with no division at all. -/
theorem C49_frob_ND_sum (hK : 1 ≤ K) {solve : Solver (ZMod (p ^ K))} {p' n d : Nat} {f : MonMap (ZMod (p ^ K))}
    {N : ND (ZMod (p ^ K))} (hC : ConstructedND solve p' f n d N) (hn : 1 ≤ n) (coord prec : Nat)
    (ei : IVec) (hc : N.basis[coord]? = some ei) (hprec : 1 ≤ prec)
    (hb : ∀ j, j < prec → (djm (poleOrder n d ei) prec j).natAbs < 2 ^ 63)
    (powers : List Int) (hpow : (prec : Int) - 1 ∈ powers) (T : List (MonMap (ZMod (p ^ K))))
    (hT : powers.foldlM (computeFpow f) (fpowStart n) = .ok T) (var : NDVar (ZMod (p ^ K)))
    (hvar : (∃ kind, var = varNDZ solve N p kind) ∨ (∃ batched, var = varNDP solve N p batched) ∨
      var = varNDFlint solve N p ∧ FlintBatchOK (p ^ K) p n d solve N) :
    ∃ F, frobCoreND var solve N p T ei (poleOrder n d ei) prec = .ok F ∧ F.len = N.basis.length ∧
      ∃ c : ℕ → ZMod (p ^ K), SeriesCoords (toPoly (n + 1) f) d p N.basis (poleOrder n d ei) prec (ev n ei) c ∧
        ∀ k, k < N.basis.length → F.e k = ((poleOrder n d (N.basis.getD k []) - 1).factorial : ZMod (p ^ K)) * c k := by
  have := nontrivial_pow (p := p) hK
  obtain ⟨lo, hv⟩ := frobND_var hK hC hn hc hb hvar
  obtain ⟨S, t1, t2, t3, -⟩ := fpowCalls_ok hC.wf hC.hom powers (tableOK_start n d f)
  rw [hT] at t1
  obtain rfl := Except.ok.inj t1
  have := t3 _ hpow
  obtain ⟨F, a1, a2, ⟨c, a3, a4⟩, -⟩ := frobCoreND_class hC hn hprime.out.one_lt.le hc hprec hv t2 (by omega)
  obtain ⟨rfl, rfl, hI⟩ := hC.init
  have hm := (basis_pole hI.base.basis (by have := hI.base.ok.hd; omega) hc).1
  have hf : DRpoly N.toDR = toPoly (N.n + 1) f := by rw [DRpoly, hI.base.f_eq]
  exact ⟨F, a1, a2, c, by rw [← hf]; exact coords_of_loops (D := N.toDR) hm hprec a4, a3⟩

/-- **C49 (variants).**  `frob_ND_ZZ` with any `loop`, `frob_ND_ZZ_p` with any `loop`, and `frob_ND_flint` where its
batched reductions are right: they return the same vector and table, and fail in the same cases. -/
theorem C49_variants_agree (hK : 1 ≤ K) (la : LinAlg (ZMod p)) (hla : LinAlgOK la) (flint : Bool)
    (precision : ℕ) (hprecision : K ≤ precision) {p' n d : ℕ} {f : MonMap (ZMod (p ^ K))} {N : ND (ZMod (p ^ K))}
    (hC : ConstructedND (padicSolver p K la flint precision) p' f n d N) (hn : 1 ≤ n) (coord prec : Nat)
    (ei : IVec) (hc : N.basis[coord]? = some ei) (hprec : 1 ≤ prec)
    (hb : ∀ j, j < prec → (djm (poleOrder n d ei) prec j).natAbs < 2 ^ 63)
    (powers : List Int) (T : List (MonMap (ZMod (p ^ K))))
    (hT : powers.foldlM (computeFpow f) (fpowStart n) = .ok T) (kind : LoopKind) :
    (∀ kind', frobNDZ (padicSolver p K la flint precision) N p kind' T coord prec =
      frobNDZ (padicSolver p K la flint precision) N p kind T coord prec) ∧
    (∀ batched, frobNDP (padicSolver p K la flint precision) N p batched T coord prec =
      frobNDZ (padicSolver p K la flint precision) N p kind T coord prec) ∧
    (FlintBatchOK (p ^ K) p n d (padicSolver p K la flint precision) N →
      frobNDFlint (padicSolver p K la flint precision) N p T coord prec =
      frobNDZ (padicSolver p K la flint precision) N p kind T coord prec) := by
  have := nontrivial_pow (p := p) hK
  obtain ⟨S, t1, t2, -, -⟩ := fpowCalls_ok hC.wf hC.hom powers (tableOK_start n d f)
  rw [hT] at t1
  obtain rfl := Except.ok.inj t1
  obtain ⟨S', u1, u2, u3, -⟩ := computeFpow_ok hC.wf hC.hom t2 ((prec : Int) - 1)
  have key : ∀ var var' : NDVar (ZMod (p ^ K)), (∃ lo : Nat → Fin (N.n + 1) → ℤ, NDVarOK N p (poleOrder n d ei) prec ei lo var) →
      (∃ lo : Nat → Fin (N.n + 1) → ℤ, NDVarOK N p (poleOrder n d ei) prec ei lo var') →
      frobFunND var frobScale (padicSolver p K la flint precision) N p (fpowStart n ++ S) coord prec =
      frobFunND var' frobScale (padicSolver p K la flint precision) N p (fpowStart n ++ S) coord prec := by
    rintro var var' ⟨lo, hv⟩ ⟨lo', hv'⟩
    obtain ⟨F, a1, a2, ⟨c, a3, a4⟩, -⟩ := frobCoreND_class hC hn hprime.out.one_lt.le hc hprec hv u2 (by omega)
    obtain ⟨G, b1, b2, ⟨c', b3, b4⟩, -⟩ := frobCoreND_class hC hn hprime.out.one_lt.le hc hprec hv' u2 (by omega)
    obtain ⟨e1, e2, hI⟩ := hC.init
    have hd := (hI.nd (by omega)).dr.hd
    rw [frobFunND_eq hprec hc (by omega) hprime.out.pos (by rw [hI.base.f_eq]; exact u1),
      frobFunND_eq hprec hc (by omega) hprime.out.pos (by rw [hI.base.f_eq]; exact u1), e1, e2, a1, b1, Res.bind_ok,
      Res.bind_ok, frobScale_congr (F := F) (G := G) (a2.trans b2.symm) ?_]
    intro r hr
    rw [a2] at hr
    have h5 := Submodule.sub_mem _ b4 a4
    rw [sub_sub_sub_cancel_left, ← Finset.sum_sub_distrib] at h5
    have h6 : ∑ r ∈ Finset.range N.basis.length, (c r - c' r) • xpow (ZMod (p ^ K)) (ev N.n (N.basis.getD r [])) ∈
        Ex (DRpoly N.toDR) N.d := by
      rw [Finset.sum_congr rfl (fun r _ => sub_smul (c r) (c' r) (xpow (ZMod (p ^ K)) (ev N.n (N.basis.getD r []))))]
      exact h5
    have h7 := basis_indep hK hla hprecision hI.base (fun r => c r - c' r) h6 r hr
    rw [a3 r hr, b3 r hr, sub_eq_zero.1 h7]
  have hz : ∀ kind, ∃ lo : Nat → Fin (N.n + 1) → ℤ, NDVarOK N p (poleOrder n d ei) prec ei lo
      (varNDZ (padicSolver p K la flint precision) N p kind) := fun kind => frobND_var hK hC hn hc hb (Or.inl ⟨kind, rfl⟩)
  refine ⟨fun kind' => key _ _ (hz kind') (hz kind),
    fun batched => key _ _ (frobND_var hK hC hn hc hb (Or.inr (Or.inl ⟨batched, rfl⟩))) (hz kind), fun hfl => ?_⟩
  rw [frobNDFlint_eq]
  exact key _ _ (frobND_var hK hC hn hc hb (Or.inr (Or.inr ⟨rfl, hfl⟩))) (hz kind)

local instance : Fact (Nat.Prime 5) := ⟨by norm_num⟩
local instance : Fact (Nat.Prime 2) := ⟨by norm_num⟩

theorem exCubic_padicND_basis (la : LinAlg (ZMod 5)) (hla : LinAlgOK la) (flint : Bool) :
    ∃ N, ConstructedND (padicSolver 5 2 la flint 2) 5 exCubic 1 3 N ∧ N.basis = [[0, 1], [1, 0]] := by
  obtain ⟨N, hN, hb⟩ := isOk_of_bind (g := fun N : ND (ZMod 25) => N.basis) (x := ND.init (certSolver (zmodInv 25)) 5 exCubic)
    (b := [[0, 1], [1, 0]]) (by decide +kernel)
  refine ⟨N, ⟨padicSolver_ok hla flint (le_refl 2), ?_, ?_, choose_small (by decide), ?_⟩, hb⟩
  · unfold exCubic WFPoly NonNeg LexLt; decide
  · unfold exCubic; decide
  · exact initND_refine (fun T BU h => certSolver_padic (p := 5) (N := 2) (by norm_num) la hla flint 2 (le_refl 2)
      (zmodInv_ok 25) T BU h) hN

/-- The cubic modulo 25 with `p = 5`: both basis elements, `N = 2`, and a table that earlier calls made longer. -/
example : ∃ la : LinAlg (ZMod 5), LinAlgOK la ∧
    ∃ N, ConstructedND (padicSolver 5 2 la true 2) 5 exCubic 1 3 N ∧
      N.basis[0]? = some [0, 1] ∧ N.basis[1]? = some [1, 0] ∧ poleOrder 1 3 [1, 0] = 1 ∧
      (∀ j, j < 2 → (djm 1 2 j).natAbs < 2 ^ 63) ∧
      ∃ T, ([3, 1] : List Int).foldlM (computeFpow exCubic) (fpowStart 1) = .ok T := by
  obtain ⟨la, hla⟩ := exists_linAlg (ZMod 5)
  obtain ⟨N, h, hb⟩ := exCubic_padicND_basis la hla true
  obtain ⟨T, hT, -⟩ := C29_fpow_table h.wf h.hom [3, 1]
  exact ⟨la, hla, N, h, by rw [hb]; rfl, by rw [hb]; rfl, by decide, by decide +kernel, T, hT⟩

/-- With `N = 1` the division is exact, so `frob_ND_ZZ` and `frob_ND_ZZ_p` return for every `loop`. -/
example : ∃ la : LinAlg (ZMod 5), ∃ N : ND (ZMod (5 ^ 2)), ∃ T,
    (∀ kind, ∃ r, frobNDZ (padicSolver 5 2 la true 2) N 5 kind T 1 1 = .ok r) ∧
    ∀ batched, ∃ r, frobNDP (padicSolver 5 2 la true 2) N 5 batched T 1 1 = .ok r := by
  obtain ⟨la, hla⟩ := exists_linAlg (ZMod 5)
  obtain ⟨N, h, hb⟩ := exCubic_padicND_basis la hla true
  obtain ⟨T, hT, -⟩ := C29_fpow_table h.wf h.hom [3, 1]
  have hc : N.basis[1]? = some [1, 0] := by rw [hb]; rfl
  have hd : ∀ j, j < 1 → (djm (poleOrder 1 3 [1, 0]) 1 j).natAbs < 2 ^ 63 := by decide +kernel
  exact ⟨la, N, T, fun kind => (C49_frob_ND_ZZ (by norm_num) h (by norm_num) kind 1 1 _ hc (by norm_num) hd _ T hT).2.1
    (by decide +kernel), fun b => (C49_frob_ND_ZZ_p (by norm_num) h (by norm_num) b 1 1 _ hc (by norm_num) hd _ T hT).2.1
    (by decide +kernel)⟩

/-- `x^3 + y^3` over `ZMod 8`. -/
def exBinary : MonMap (ZMod 8) := [([0, 3], 1), ([3, 0], 1)]

theorem exBinary_padicND (la : LinAlg (ZMod 2)) (hla : LinAlgOK la) (flint : Bool) :
    ∃ N, ConstructedND (padicSolver 2 3 la flint 3) 2 exBinary 1 3 N ∧ N.basis = [[0, 1], [1, 0]] := by
  obtain ⟨N, hN, hb⟩ := isOk_of_bind (g := fun N : ND (ZMod 8) => N.basis) (x := ND.init (certSolver (zmodInv 8)) 2 exBinary)
    (b := [[0, 1], [1, 0]]) (by decide +kernel)
  refine ⟨N, ⟨padicSolver_ok hla flint (le_refl 3), ?_, ?_, choose_small (by decide), ?_⟩, hb⟩
  · unfold exBinary WFPoly NonNeg LexLt; decide
  · unfold exBinary; decide
  · exact initND_refine (fun T BU h => certSolver_padic (p := 2) (N := 3) (by norm_num) la hla flint 3 (le_refl 3)
      (zmodInv_ok 8) T BU h) hN

/-- For `frob_ND_flint`: `x^3 + y^3` modulo 8 with `p = 2`, where `p <= n + 1`. -/
example : ∃ la : LinAlg (ZMod 2), LinAlgOK la ∧
    ∃ N, ConstructedND (padicSolver 2 3 la true 3) 2 exBinary 1 3 N ∧
      FlintBatchOK (2 ^ 3) 2 1 3 (padicSolver 2 3 la true 3) N ∧ N.basis[0]? = some [0, 1] ∧
      (∀ j, j < 2 → (djm (poleOrder 1 3 [0, 1]) 2 j).natAbs < 2 ^ 63) ∧
      ∃ T, ([3, 1] : List Int).foldlM (computeFpow exBinary) (fpowStart 1) = .ok T := by
  obtain ⟨la, hla⟩ := exists_linAlg (ZMod 2)
  obtain ⟨N, h, hb⟩ := exBinary_padicND la hla true
  obtain ⟨T, hT, -⟩ := C29_fpow_table h.wf h.hom [3, 1]
  exact ⟨la, hla, N, h, Or.inr (Or.inl (by norm_num)), by rw [hb]; rfl, by decide +kernel, T, hT⟩

end

end Verif
