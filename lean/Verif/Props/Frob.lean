import Verif.Lemmas.Scaled
import Verif.Props.Paths

/-!
Properties C29, C31, C32 and C47: the table of powers, the coefficients and the factorials of the Frobenius
functions, and the class of the whole sum.
-/

namespace Verif

open Spec MvPolynomial

section

variable {R : Type} [CommRing R]

/-! ### C29 -/

/-- **C29.**  Start from the table of a new object and make any sequence of calls `compute_fpow(q)`: no call
fails, entry `k` of the table is `f^k` (with no monomial repeated and all of degree `k d`), the table covers
every `q` asked for and is no longer than needed, and further calls only append to it. -/
theorem C29_fpow_table [DecidableEq R] {n d : Nat} {f : MonMap R} (hf : WFPoly (n + 1) f)
    (hd : ∀ e ∈ f, deg e.1 = d) (powers : List Int) :
    ∃ T, powers.foldlM (computeFpow f) (fpowStart n) = .ok T ∧
      (∀ (k : Nat) (P : MonMap R), T[k]? = some P →
        WFPoly (n + 1) P ∧ toPoly (n + 1) P = toPoly (n + 1) f ^ k ∧ ∀ e ∈ P, deg e.1 = (k : Int) * d) ∧
      (∀ q ∈ powers, q < T.length) ∧
      (T.length : Int) = powers.foldl (fun a q => max a (q + 1)) 1 ∧
      ∀ more : List Int, ∃ S, (powers ++ more).foldlM (computeFpow f) (fpowStart n) = .ok (T ++ S) := by
  obtain ⟨S, a1, a2, a3, a4⟩ := fpowCalls_ok hf hd powers (tableOK_start n d f)
  refine ⟨fpowStart n ++ S, a1, a2.entry, a3, a4, fun more => ?_⟩
  obtain ⟨S', b1, -, -, -⟩ := fpowCalls_ok hf hd more a2
  exact ⟨S', by rw [List.foldlM_append, a1, Res.bind_ok, b1]⟩

/-- The elliptic curve: after the calls with 2, 1 and 3 the table has four entries. -/
example : WFPoly (2 + 1) exCurve ∧ (∀ e ∈ exCurve, deg e.1 = (3 : Nat)) ∧
    (([2, 1, 3] : List Int).foldlM (computeFpow exCurve) (fpowStart 2)).map List.length = .ok 4 := by
  refine ⟨?_, ?_, ?_⟩
  · unfold exCurve WFPoly NonNeg LexLt; decide
  · unfold exCurve; decide
  · decide +kernel

/-! ### C31 -/

theorem phi_max (p M e : Nat) : phi p M e = (p * M - 1).factorial / (max (p * e) 1 - 1).factorial := by
  rw [phi, show max (p * e) 1 - 1 = p * e - 1 by omega]

variable [DecidableEq R] {var : FrobVar R} {solve : Solver R} {D : DR R} {p m N : Nat} {T : List (MonMap R)}
  {ei : IVec}

theorem mainLoop_fact (hp : 1 ≤ p) {lo : Nat} (cnt : Nat) : ∀ st st' : FrobState R, lo + cnt ≤ m + N - 1 →
    st.fact = ((phi p (m + N - 1) (lo + cnt) : Nat) : R) →
    downTo lo (frobPass var D p T ei m N) cnt st = .ok st' →
    st'.fact = ((phi p (m + N - 1) lo : Nat) : R) := by
  induction cnt with
  | zero => intro st st' _ h e; obtain rfl := Except.ok.inj e; exact h
  | succ cnt ih =>
    intro st st' hle h e
    rw [downTo, Res.bind_eq_ok] at e
    obtain ⟨s1, e1, e2⟩ := e
    refine ih s1 st' (by omega) ?_ e2
    rw [frobPass, Res.bind_eq_ok] at e1
    obtain ⟨H, -, e1⟩ := e1
    rw [Res.bind_eq_ok] at e1
    obtain ⟨s, -, e1⟩ := e1
    obtain rfl := Except.ok.inj e1
    show factStep p (lo + cnt + 1) st.fact = _
    rw [h, ← add_assoc, factStep_phi hp (by omega) (by omega)]; rfl

theorem lastLoop_fact (hp : 1 ≤ p) {lo : Nat} (cnt : Nat) : ∀ s s' : LastState R, lo + cnt ≤ m + N - 1 →
    s.fact = ((phi p (m + N - 1) (lo + cnt) : Nat) : R) →
    downTo lo (frobLastPass var solve D p T ei m N) cnt s = .ok s' →
    s'.fact = ((phi p (m + N - 1) lo : Nat) : R) := by
  induction cnt with
  | zero => intro st st' _ h e; obtain rfl := Except.ok.inj e; exact h
  | succ cnt ih =>
    intro st st' hle h e
    rw [downTo, Res.bind_eq_ok] at e
    obtain ⟨s1, e1, e2⟩ := e
    refine ih s1 st' (by omega) ?_ e2
    have h5 : s1.fact = factStep p (lo + cnt + 1) st.fact := by
      rw [frobLastPass, Res.bind_eq_ok] at e1
      obtain ⟨_, -, e1⟩ := e1
      by_cases hm : m ≤ lo + cnt + 1
      · rw [if_pos hm, Res.bind_eq_ok] at e1
        obtain ⟨r, -, e1⟩ := e1
        obtain rfl := Except.ok.inj e1; rfl
      · rw [if_neg hm] at e1
        obtain rfl := Except.ok.inj e1; rfl
    rw [h5, h, ← add_assoc, factStep_phi hp (by omega) (by omega)]; rfl

/-- **C31 (running factor).**  Both Frobenius functions, all `loop`: start the main loop with factor 1 at pole
order `e = m+N-1`; whenever the passes down to `e+1` return, the factor is
`(p(m+N-1)-1)! / (max(pe, 1)-1)!`.  From there the passes of the last loop give the same expression at the
order they reach. -/
theorem C31_running_factor (hp : 1 ≤ p) (e e' : Nat) (he : e ≤ m + N - 1) (he' : e' ≤ e) (H : MonMap (CVec R))
    (last : CVec R) (st : FrobState R)
    (h1 : downTo e (frobPass var D p T ei m N) (m + N - 1 - e) ⟨1, H, last⟩ = .ok st) (F G0 : CVec R)
    (s : LastState R)
    (h2 : downTo e' (frobLastPass var solve D p T ei m N) (e - e') ⟨st.fact, F, G0⟩ = .ok s) :
    st.fact = (((p * (m + N - 1) - 1).factorial / (max (p * e) 1 - 1).factorial : Nat) : R) ∧
    s.fact = (((p * (m + N - 1) - 1).factorial / (max (p * e') 1 - 1).factorial : Nat) : R) ∧
    (e' = 0 → s.fact = (((p * (m + N - 1) - 1).factorial : Nat) : R)) := by
  have a1 := mainLoop_fact hp (m + N - 1 - e) _ _ (by omega)
    (by rw [show e + (m + N - 1 - e) = m + N - 1 by omega, phi_top]; simp) h1
  have a2 := lastLoop_fact hp (e - e') _ _ (by omega) (by rw [show e' + (e - e') = e by omega]; exact a1) h2
  rw [← phi_max, ← phi_max]
  refine ⟨a1, a2, ?_⟩
  rintro rfl
  rw [a2, phi_zero]

/-- **C31 (assertions).**  In `frob_J_ZZ` (the variant whose last loop goes down to `e = 1`), as long as
`n/p <= m+N-1`: no assertion on the factor ever fires.  Leaving them out does not change the outcome of the
last loop, and when the loops return, the closing assertion holds.  (Without the bound it fails:
`C31_low_precision_wrong`.) -/
theorem C31_assertions_partial (hp : 1 ≤ p) (hn : D.n / p ≤ m + N - 1) (H : MonMap (CVec R)) (last : CVec R)
    (st : FrobState R)
    (h1 : downTo (D.n / p) (frobPass var D p T ei m N) (m + N - 1 - D.n / p) ⟨1, H, last⟩ = .ok st)
    (F G0 : CVec R) :
    downTo 0 (frobLastPass var solve D p T ei m N) (D.n / p) ⟨st.fact, F, G0⟩ =
      downTo 0 (frobLastPass { var with assertFact := false } solve D p T ei m N) (D.n / p) ⟨st.fact, F, G0⟩ ∧
    ∀ s, downTo 0 (frobLastPass var solve D p T ei m N) (D.n / p) ⟨st.fact, F, G0⟩ = .ok s →
      s.fact = factorialR (p * (m + N - 1) - 1) 1 := by
  have a1 := mainLoop_fact hp (m + N - 1 - D.n / p) _ _ (le_of_eq (Nat.add_sub_cancel' hn))
    (by rw [Nat.add_sub_cancel' hn, phi_top]; simp) h1
  have key : ∀ (cnt : Nat) (s : LastState R), cnt ≤ m + N - 1 → s.fact = ((phi p (m + N - 1) cnt : Nat) : R) →
      downTo 0 (frobLastPass var solve D p T ei m N) cnt s =
      downTo 0 (frobLastPass { var with assertFact := false } solve D p T ei m N) cnt s := by
    intro cnt
    induction cnt with
    | zero => intro s _ _; rfl
    | succ cnt ih =>
      intro s hle hs
      have hcheck : (!var.assertFact || decide (s.fact = factorialR (p * (m + N - 1) - 1) (p * (0 + cnt + 1)))) = true := by
        rw [Bool.or_eq_true, decide_eq_true_eq]
        right
        rw [factorialR_phi hp (by omega) (by omega), hs, Nat.zero_add]
      have hpass : frobLastPass var solve D p T ei m N (0 + cnt + 1) s =
          frobLastPass { var with assertFact := false } solve D p T ei m N (0 + cnt + 1) s := by
        rw [frobLastPass, frobLastPass, hcheck]
        rfl
      rw [downTo, downTo, ← hpass]
      cases e1 : frobLastPass var solve D p T ei m N (0 + cnt + 1) s with
      | error err => rfl
      | ok s1 =>
        rw [Res.bind_ok, Res.bind_ok]
        refine ih s1 (by omega) ?_
        exact lastLoop_fact (lo := cnt) hp 1 s s1 (by omega) hs (by
          rw [downTo, show cnt + 0 + 1 = 0 + cnt + 1 by omega, e1]; rfl)
  refine ⟨key _ _ hn a1, fun s hs => ?_⟩
  rw [lastLoop_fact (lo := 0) hp (D.n / p) _ _ (by rw [Nat.zero_add]; exact hn) (by rw [Nat.zero_add]; exact a1) hs, phi_zero,
    factorialR_one]

/-- **C31, wrong when the precision is low.**  With `n/p > m+N-1` the recurrence starts at `e = n/p` with
factor 1 and overshoots: for `p = 2`, `n = 4`, `m = N = 1` the last loop multiplies 1 by `3 * 2 * 1` while the
closing assertion expects `(2 * 1 - 1)! = 1`. -/
theorem C31_low_precision_wrong :
    ∃ p n m N : Nat, m + N - 1 < n / p ∧ 1 ≤ m ∧ m ≤ n ∧ 1 ≤ N ∧
      downTo 0 (fun e (x : Int) => .ok (factStep p e x)) (n / p) 1 ≠ .ok (factorialR (p * (m + N - 1) - 1) 1) :=
  ⟨2, 4, 1, 1, by decide, by decide, by decide, by decide, by decide +kernel⟩

/-- The runs of the two loops inside a call that returns. -/
theorem frobCore_runs {coord : Nat} {F : CVec R} (hc : D.basis[coord]? = some ei)
    (hm : ((sumVec ei + D.n + 1) / D.d).toNat = m) (h : frobCore var solve D p T coord N = .ok F) :
    ∃ (last F0 : CVec R) (st : FrobState R) (s : LastState R),
      downTo (D.n / p) (frobPass var D p T ei m N) (m + N - 1 - D.n / p) ⟨1, [], last⟩ = .ok st ∧
      downTo (if var.full then 0 else m - 1) (frobLastPass var solve D p T ei m N)
        (D.n / p - (if var.full then 0 else m - 1)) ⟨st.fact, F0, ⟨0, fun _ => 0⟩⟩ = .ok s ∧
      s.fact = factorialR (p * (m + N - 1) - 1) 1 ∧ F = s.F := by
  unfold frobCore at h
  rw [Res.bind_eq_ok] at h
  obtain ⟨_, -, h⟩ := h
  rw [aget, hc, Res.bind_ok] at h
  by_cases h0 : D.d = 0 ∨ p = 0
  · rw [if_pos h0] at h; cases h
  rw [if_neg h0] at h
  simp only [hm] at h
  rw [Res.bind_eq_ok] at h
  obtain ⟨len, -, h⟩ := h
  by_cases h1 : len < 0
  · rw [if_pos h1] at h; cases h
  rw [if_neg h1, Res.bind_eq_ok] at h
  obtain ⟨st, e1, h⟩ := h
  rw [Res.bind_eq_ok] at h
  obtain ⟨M, -, h⟩ := h
  rw [Res.bind_eq_ok] at h
  obtain ⟨F0, -, h⟩ := h
  rw [Res.bind_eq_ok] at h
  obtain ⟨s, e2, h⟩ := h
  rw [Res.bind_eq_ok] at h
  obtain ⟨_, e3, e4⟩ := h
  rw [check_eq_ok, decide_eq_true_eq] at e3
  exact ⟨_, F0, st, s, e1, e2, e3, (Except.ok.inj e4).symm⟩

/-- When `frob_J_ZZ_p` returns, its factor, which it stops updating below `e = m`, agrees with the closing
assertion. -/
theorem varP_fact {kind : LoopKind} (hp : 1 ≤ p) {coord : Nat} {F : CVec R} (hc : D.basis[coord]? = some ei)
    (hm : ((sumVec ei + D.n + 1) / D.d).toNat = m) (hhigh : D.n / p ≤ m + N - 1)
    (h : frobCore (varP solve D p kind) solve D p T coord N = .ok F) :
    ((phi p (m + N - 1) (min (D.n / p) (m - 1)) : Nat) : R) = (((p * (m + N - 1) - 1).factorial : Nat) : R) := by
  obtain ⟨_, F0, st, s, e1, e2, e3, -⟩ := frobCore_runs hc hm h
  rw [factorialR_one] at e3
  have a1 := mainLoop_fact hp (m + N - 1 - D.n / p) _ _ (le_of_eq (Nat.add_sub_cancel' hhigh))
    (by rw [Nat.add_sub_cancel' hhigh, phi_top]; simp) e1
  have hlo : (if (varP solve D p kind).full then 0 else m - 1) = m - 1 := rfl
  rw [hlo] at e2
  rcases le_total (D.n / p) (m - 1) with hle | hle
  · rw [Nat.sub_eq_zero_of_le hle] at e2
    obtain rfl := Except.ok.inj e2
    rw [min_eq_left hle, ← e3]
    exact a1.symm
  · rw [min_eq_right hle, ← e3]
    exact (lastLoop_fact hp (D.n / p - (m - 1)) _ _ (by rw [Nat.add_sub_cancel' hle]; exact hhigh)
      (by rw [Nat.add_sub_cancel' hle]; exact a1) e2).symm

/-- **C31, wrong for `frob_J_ZZ_p`.**  Its last loop stops at `e = m`, and so does the recurrence for the
factor.  For surfaces over `F_3` (`n = p = 3`), modulo any `3^K` with `K >= 2`, whatever the surface, the
table and `loop`: for no basis element of pole order 2 does the call with `N = 1` return, since the factor
is 60 and the closing assertion expects `5! = 120`. -/
theorem C31_ZZ_p_wrong (K : Nat) (hK : 2 ≤ K) (solve : Solver (ZMod (3 ^ K))) (D : DR (ZMod (3 ^ K)))
    (hn : D.n = 3) (T : List (MonMap (ZMod (3 ^ K)))) (kind : LoopKind) (coord : Nat) (ei : IVec)
    (hc : D.basis[coord]? = some ei) (hm : poleOrder 3 D.d ei = 2) (F : CVec (ZMod (3 ^ K))) :
    frobCore (varP solve D 3 kind) solve D 3 T coord 1 ≠ .ok F := by
  intro h
  have h5 := varP_fact (m := 2) (by omega) hc (by rw [hn, sumVec_eq_sum]; exact hm) (by rw [hn]; decide) h
  rw [hn] at h5
  have e1 : phi 3 (2 + 1 - 1) (min (3 / 3) (2 - 1)) = 60 := by decide +kernel
  have e2 : (3 * (2 + 1 - 1) - 1).factorial = 120 := by decide
  rw [e1, e2, ZMod.natCast_eq_natCast_iff] at h5
  have h6 : 3 ^ K ∣ 60 := (Nat.modEq_iff_dvd' (by omega)).1 h5
  exact absurd (dvd_trans (pow_dvd_pow 3 hK) h6) (by decide)

/-- The basis of a quartic surface contains an element of pole order 2, for example `xyzw`. -/
example : poleOrder 3 4 [1, 1, 1, 1] = 2 := by decide

end

/-! ### C32 -/

/-- `C(i, j)` is below `2^63` for all `i <= 66`. -/
theorem choose_66 {i j : Nat} (h : i ≤ 66) : i.choose j < 2 ^ 63 :=
  lt_of_le_of_lt ((Nat.choose_le_choose j h).trans (Nat.choose_le_middle j 66)) (by decide +kernel)

/-- **C32 (up to 67 terms).**  For all `m >= 1` and `N <= 67` the big-integer computation returns `D_{j,m}` for
every `j < N`; these are the coefficients of `Σ_{i<N} C(m+i-1, i) (1-X)^i`, and this polynomial is the inverse of
`X^m` modulo `(1-X)^N`.  Missing: `N >= 68`, where the code fails (`C32_window_wrong`, `C32_stops`). -/
theorem C32_series_partial (m N : Nat) (hm : 1 ≤ m) (hN : N ≤ 67) :
    ∃ Dj : Nat → Int, (∀ j, j < N → djmZZ m j N = .ok (Dj j)) ∧
      ∑ j ∈ Finset.range N, Polynomial.C (Dj j) * (Polynomial.X : Polynomial ℤ) ^ j =
        ∑ i ∈ Finset.range N, Polynomial.C (((m + i - 1).choose i : Nat) : ℤ) * (1 - Polynomial.X) ^ i ∧
      (1 - Polynomial.X : Polynomial ℤ) ^ N ∣
        Polynomial.X ^ m * ∑ j ∈ Finset.range N, Polynomial.C (Dj j) * Polynomial.X ^ j - 1 :=
  ⟨djm m N, fun j _ => djmZZ_ok hm (fun i _ h2 => choose_66 (by omega)), djm_series m N hm, djm_inverse m N hm⟩

/-- **C32 (the three ways of computing them).**  Whenever `|D_{j,m}| < 2^63` the 64-bit computation of
`frob_J_ZZ_p` and the mixed one of the last loop of `frob_J_ZZ` return, without overflow, the same value as
the big-integer one. -/
theorem C32_variants_partial (m N j : Nat) (hm : 1 ≤ m) (hj : j < N) (h : (djm m N j).natAbs < 2 ^ 63) :
    djmZZ m j N = .ok (djm m N j) ∧ djmMix m j N = .ok (djm m N j) ∧ djm64 m j N = .ok (djm m N j) := by
  rw [djm_natAbs] at h
  have hle : ∀ i, j ≤ i → i < N → dbin m j i < 2 ^ 63 := fun i h1 h2 =>
    lt_of_le_of_lt (Finset.single_le_sum (f := dbin m j) (fun _ _ => Nat.zero_le _)
      (Finset.mem_Ico.2 ⟨h1, h2⟩)) h
  refine ⟨djmZZ_ok hm (fun i h1 h2 => lt_of_le_of_lt ?_ (hle i h1 h2)), djmMix_ok hm hle, djm64_ok hm h⟩
  exact Nat.le_mul_of_pos_left _ (Nat.choose_pos (by omega))

/-- `m = 2`, `N = 3`: `D = 6, -8, 3`. -/
example : (djmZZ 2 0 3, djmMix 2 1 3, djm64 2 2 3) = (.ok 6, .ok (-8), .ok 3) ∧ (djm 2 3 1).natAbs < 2 ^ 63 := by
  decide +kernel

/-! ### C47 -/

section

variable {p K : ℕ} [hprime : Fact p.Prime]

omit hprime in
theorem frobFun_eq {q : Nat} {var : FrobVar (ZMod q)} {solve : Solver (ZMod q)} {D : DR (ZMod q)}
    {T T' : List (MonMap (ZMod q))} {coord N : Nat} {ei : IVec} (hN : 1 ≤ N) (hc : D.basis[coord]? = some ei)
    (hT : computeFpow D.f T ((N : Int) - 1) = .ok T') :
    frobFun var solve D p T coord N = (do
      let F ← frobCore var solve D p T' coord N
      let F' ← frobScale p D.n (p * (((sumVec ei + D.n + 1) / D.d).toNat + N - 1) - 1) F
      pure (F', T')) := by
  rw [frobFun, decide_eq_true (show 0 < N from hN), check_true, Res.bind_ok, aget, hc, Res.bind_ok, hT, Res.bind_ok]

omit hprime in
theorem poleOrder_sumVec (n d : Nat) (ei : IVec) : ((sumVec ei + n + 1) / d).toNat = poleOrder n d ei := by
  rw [sumVec_eq_sum]; rfl

theorem basisForm_smul {R : Type} [CommRing R] (n d : Nat) (basis : List IVec) {F G : Nat → R} (a b : R)
    (h : ∀ i, i < basis.length → a * F i = b * G i) :
    a • basisForm n d basis F = b • basisForm n d basis G := by
  rw [basisForm, basisForm, Finset.smul_sum, Finset.smul_sum]
  refine Finset.sum_congr rfl (fun i hi => ?_)
  rw [smul_smul, smul_smul, h i (Finset.mem_range.1 hi)]

theorem Spec.Cohomologous.smul {R : Type} [CommRing R] {n d : Nat} {f : MvPolynomial (Fin (n + 1)) R}
    {w w' : Forms R n} (h : Cohomologous f d w w') (a : R) : Cohomologous f d (a • w) (a • w') := by
  rw [Cohomologous, ← smul_sub]
  exact Submodule.smul_mem _ a h

/-- The whole function, for a variant meeting the assumptions of the loops. -/
theorem frobFun_class (hK : 1 ≤ K) {solve : Solver (ZMod (p ^ K))} {p' n d : Nat} {f : MonMap (ZMod (p ^ K))}
    {D : DR (ZMod (p ^ K))} (hC : Constructed solve p' f n d D) (hn : 1 ≤ n) {var : FrobVar (ZMod (p ^ K))}
    {coord N : Nat} {ei : IVec} (hc : D.basis[coord]? = some ei) (hN : 1 ≤ N)
    (hv : ∀ L, IsTable D.n ((D.d : Int) * D.n - D.n) L → VarOK D p L (poleOrder n d ei) N var)
    (hhigh : n / p ≤ poleOrder n d ei + N - 1) (hre : var.reuse = true → n / p ≤ poleOrder n d ei)
    (hend : var.full = true ∨ n < p ∨ poleOrder n d ei = 1) (powers : List Int) {T : List (MonMap (ZMod (p ^ K)))}
    (hT : powers.foldlM (computeFpow f) (fpowStart n) = .ok T) :
    (∀ r, frobFun var solve D p T coord N = .ok r → r.1.len = D.basis.length ∧
      (powers ++ [(N : Int) - 1]).foldlM (computeFpow f) (fpowStart n) = .ok r.2 ∧
      FrobColumn (toPoly (n + 1) f) d p D.basis (poleOrder n d ei) N (ev n ei) r.1.e) ∧
    (¬ p ^ n ∣ (p * (poleOrder n d ei + N - 1) - 1).factorial → ∃ r, frobFun var solve D p T coord N = .ok r) ∧
    (∀ err, frobFun var solve D p T coord N = .error err → err = .assertFail) := by
  have hp : p.Prime := hprime.out
  have := nontrivial_pow (p := p) hK
  obtain ⟨S, t1, t2, -, -⟩ := fpowCalls_ok hC.wf hC.hom powers (tableOK_start n d f)
  rw [hT] at t1
  obtain rfl := Except.ok.inj t1
  obtain ⟨S', u1, u2, u3, -⟩ := computeFpow_ok hC.wf hC.hom t2 ((N : Int) - 1)
  obtain ⟨F, a1, a2, ⟨c, a3, a4⟩, -⟩ := frobCore_class hC hn hp.one_lt.le hc hN hv hhigh hre hend u2 (by omega)
  obtain ⟨e1, e2, hI⟩ := hC.init
  have hfun := frobFun_eq (var := var) (solve := solve) (p := p) hN hc (by rw [hI.f_eq]; exact u1)
  rw [a1, Res.bind_ok, e1, e2, poleOrder_sumVec] at hfun
  obtain ⟨s1, s2, s3⟩ := frobScale_ok (a := p * (poleOrder n d ei + N - 1) - 1) hp hn F
  rw [hfun]
  refine ⟨fun r hr => ?_, fun h => ?_, fun err h => ?_⟩
  · rw [Res.bind_eq_ok] at hr
    obtain ⟨F', b1, b2⟩ := hr
    obtain rfl := Except.ok.inj b2
    obtain ⟨c1, c2⟩ := s1 F' b1
    refine ⟨by rw [← a2]; exact c1, ?_, ?_⟩
    · rw [List.foldlM_append, hT, Res.bind_ok, List.foldlM_cons, u1]; rfl
    · subst e1 e2
      have hf : DRpoly D = toPoly (D.n + 1) f := by rw [DRpoly, hI.f_eq]
      rw [← hf]
      exact column_of_loops (D := D) (basis_pole hI.basis (by have := hI.ok.hd; omega) hc).1 hN a3 a4
        (fun i hi => c2 i (by rw [a2]; exact hi))
  · obtain ⟨F', hF'⟩ := s2 h
    exact ⟨(F', _), by rw [hF', Res.bind_ok]; rfl⟩
  · cases hF : frobScale p n (p * (poleOrder n d ei + N - 1) - 1) F with
    | error err' =>
      rw [hF, Res.bind_error] at h
      obtain rfl := Except.error.inj h
      exact s3 _ hF
    | ok F' => rw [hF, Res.bind_ok] at h; cases h

/-- **C47 (`frob_J_ZZ`, so `frob_J`).**  Every object built by the constructor, every basis element `x^b` of
pole order `m`, every `N >= 1`, every `loop`, every table of powers left by earlier calls: if
`n/p <= m` (always so for `p > n/2`) and the coefficients fit, then the call returns unless its exact division
fails; a returned vector `F` is the column of `b` (`FrobColumn`): the coordinates of
`p^(n-1) Σ_{j<N} D_{j,m} f^j(x^p) x^(p(b+1)-1) Ω / f^(p(m+j))`.
Missing for the full statement: `n/p > m`, where the code is wrong (`C47_stale_storage_wrong`). -/
theorem C47_frob_J_partial (hK : 1 ≤ K) {solve : Solver (ZMod (p ^ K))} {p' n d : Nat} {f : MonMap (ZMod (p ^ K))}
    {D : DR (ZMod (p ^ K))} (hC : Constructed solve p' f n d D) (hn : 1 ≤ n) (kind : LoopKind) (coord N : Nat)
    (ei : IVec) (hc : D.basis[coord]? = some ei) (hN : 1 ≤ N) (hlow : n / p ≤ poleOrder n d ei)
    (hb : ∀ i j, j ≤ i → i < N → i.choose j < 2 ^ 63)
    (hb' : ∀ j, j < N → poleOrder n d ei + j ≤ n / p → (djm (poleOrder n d ei) N j).natAbs < 2 ^ 63)
    (powers : List Int) (T : List (MonMap (ZMod (p ^ K))))
    (hT : powers.foldlM (computeFpow f) (fpowStart n) = .ok T) :
    (∀ r, frobFun (varZ solve D p kind) solve D p T coord N = .ok r → r.1.len = D.basis.length ∧
      (powers ++ [(N : Int) - 1]).foldlM (computeFpow f) (fpowStart n) = .ok r.2 ∧
      FrobColumn (toPoly (n + 1) f) d p D.basis (poleOrder n d ei) N (ev n ei) r.1.e) ∧
    (¬ p ^ n ∣ (p * (poleOrder n d ei + N - 1) - 1).factorial →
      ∃ r, frobFun (varZ solve D p kind) solve D p T coord N = .ok r) ∧
    (∀ err, frobFun (varZ solve D p kind) solve D p T coord N = .error err → err = .assertFail) := by
  have : NeZero (p ^ K) := ⟨pow_ne_zero _ hprime.out.ne_zero⟩
  obtain ⟨e1, e2, hI⟩ := hC.init
  have hm := (basis_pole hI.basis (by have := hI.ok.hd; omega) hc).1
  rw [e1, e2] at hm
  exact frobFun_class hK hC hn hc hN
    (fun L hL => varZ_ok hC hL (by omega) p kind hm hb (by rw [e1]; exact hb'))
    (le_trans hlow (by omega)) (fun _ => hlow) (Or.inl rfl) powers hT

/-- **C47 (meaning of `FrobColumn`).**  For every object of the constructor, a column in the sense of `FrobColumn` satisfies
the relation of forms
`(p(m+N-1)-1)! Σ F_j basis_j ~ (p(m+N-1)-1)! p^(n-1) Σ_{j<N} D_{j,m} f^j(x^p) x^(p(b+1)-1) Ω / f^(p(m+j))`. -/
theorem C47_column_class {R : Type} [CommRing R] [DecidableEq R] [Nontrivial R] {solve : Solver R} {p' n d : Nat} {f : MonMap R}
    {D : DR R} (hC : Constructed solve p' f n d D) {coord N : Nat} {ei : IVec} (hc : D.basis[coord]? = some ei) {F : ℕ → R}
    (h : FrobColumn (toPoly (n + 1) f) d p D.basis (poleOrder n d ei) N (ev n ei) F) :
    Cohomologous (toPoly (n + 1) f) d
      ((((p * (poleOrder n d ei + N - 1) - 1).factorial : Nat) : R) • ((p ^ (n - 1) : Nat) : R) •
        frobSeries (toPoly (n + 1) f) p (poleOrder n d ei) N (ev n ei))
      ((((p * (poleOrder n d ei + N - 1) - 1).factorial : Nat) : R) • basisForm n d D.basis F) := by
  obtain ⟨rfl, rfl, hI⟩ := hC.init
  have hd := hI.ok.hd
  obtain ⟨m1, -, m3⟩ := basis_pole hI.basis (by omega) hc
  exact FrobColumn.cohomologous (h := h) hprime.out (toPoly_isHomogeneous f hC.wf.1 hC.hom) hd m1 (sum_ev_tuple m3)
    (fun t ht => by obtain ⟨k, h1, -, h3⟩ := hI.basis.pole t ht; exact ⟨k, h1, h3⟩)

/-- **C47 (the sum before the factors are divided out).**  Same assumptions; over any residue ring, with no
division at all: the vector computed by the loops is the coordinate vector of the series times the
factorial. -/
theorem C47_frob_J_sum_partial (hK : 1 ≤ K) {solve : Solver (ZMod (p ^ K))} {p' n d : Nat}
    {f : MonMap (ZMod (p ^ K))}
    {D : DR (ZMod (p ^ K))} (hC : Constructed solve p' f n d D) (hn : 1 ≤ n) (kind : LoopKind) (coord N : Nat)
    (ei : IVec) (hc : D.basis[coord]? = some ei) (hN : 1 ≤ N) (hlow : n / p ≤ poleOrder n d ei)
    (hb : ∀ i j, j ≤ i → i < N → i.choose j < 2 ^ 63)
    (hb' : ∀ j, j < N → poleOrder n d ei + j ≤ n / p → (djm (poleOrder n d ei) N j).natAbs < 2 ^ 63)
    (powers : List Int) (hpow : (N : Int) - 1 ∈ powers) (T : List (MonMap (ZMod (p ^ K))))
    (hT : powers.foldlM (computeFpow f) (fpowStart n) = .ok T) :
    ∃ F, frobCore (varZ solve D p kind) solve D p T coord N = .ok F ∧ F.len = D.basis.length ∧
      ∃ c : ℕ → ZMod (p ^ K), SeriesCoords (toPoly (n + 1) f) d p D.basis (poleOrder n d ei) N (ev n ei) c ∧
        ∀ k, k < D.basis.length → F.e k = ((poleOrder n d (D.basis.getD k []) - 1).factorial : ZMod (p ^ K)) * c k := by
  have : NeZero (p ^ K) := ⟨pow_ne_zero _ hprime.out.ne_zero⟩
  have := nontrivial_pow (p := p) hK
  obtain ⟨e1, e2, hI⟩ := hC.init
  have hm := (basis_pole hI.basis (by have := hI.ok.hd; omega) hc).1
  rw [e1, e2] at hm
  obtain ⟨S, t1, t2, t3, -⟩ := fpowCalls_ok hC.wf hC.hom powers (tableOK_start n d f)
  rw [hT] at t1
  obtain rfl := Except.ok.inj t1
  have := t3 _ hpow
  obtain ⟨F, a1, a2, ⟨c, a3, a4⟩, -⟩ := frobCore_class hC hn hprime.out.one_lt.le hc hN
    (fun L hL => varZ_ok hC hL (by omega) p kind hm hb (by rw [e1]; exact hb'))
    (le_trans hlow (by omega)) (fun _ => hlow) (Or.inl rfl) t2 (by omega)
  subst e1 e2
  have hf : DRpoly D = toPoly (D.n + 1) f := by rw [DRpoly, hI.f_eq]
  exact ⟨F, a1, a2, c, by rw [← hf]; exact coords_of_loops hm hN a4, a3⟩

/-- **C47 (`frob_J_ZZ_p`).**  The same for the other variant, when `n < p` or `m = 1`.  Missing: `n >= p` and
`m > 1`, where the closing assertion can fail (`C31_ZZ_p_wrong`). -/
theorem C47_frob_J_ZZ_p_partial (hK : 1 ≤ K) {solve : Solver (ZMod (p ^ K))} {p' n d : Nat} {f : MonMap (ZMod (p ^ K))}
    {D : DR (ZMod (p ^ K))} (hC : Constructed solve p' f n d D) (hn : 1 ≤ n) (kind : LoopKind) (coord N : Nat)
    (ei : IVec) (hc : D.basis[coord]? = some ei) (hN : 1 ≤ N) (hlow : n < p ∨ poleOrder n d ei = 1 ∧ n / p ≤ N)
    (hb : ∀ j, j < N → (djm (poleOrder n d ei) N j).natAbs < 2 ^ 63)
    (powers : List Int) (T : List (MonMap (ZMod (p ^ K))))
    (hT : powers.foldlM (computeFpow f) (fpowStart n) = .ok T) :
    (∀ r, frobFun (varP solve D p kind) solve D p T coord N = .ok r → r.1.len = D.basis.length ∧
      (powers ++ [(N : Int) - 1]).foldlM (computeFpow f) (fpowStart n) = .ok r.2 ∧
      FrobColumn (toPoly (n + 1) f) d p D.basis (poleOrder n d ei) N (ev n ei) r.1.e) ∧
    (¬ p ^ n ∣ (p * (poleOrder n d ei + N - 1) - 1).factorial →
      ∃ r, frobFun (varP solve D p kind) solve D p T coord N = .ok r) ∧
    (∀ err, frobFun (varP solve D p kind) solve D p T coord N = .error err → err = .assertFail) := by
  obtain ⟨e1, e2, hI⟩ := hC.init
  have hm := (basis_pole hI.basis (by have := hI.ok.hd; omega) hc).1
  rw [e1, e2] at hm
  refine frobFun_class hK hC hn hc hN (fun L hL => varP_ok hC hL (by omega) p kind hm hb) ?_
    (fun h => by cases h) ?_ powers hT
  · rcases hlow with h | ⟨h, h'⟩
    · rw [Nat.div_eq_of_lt h]; exact Nat.zero_le _
    · rw [h, Nat.add_sub_cancel_left]; exact h'
  · rcases hlow with h | ⟨h, -⟩
    · exact Or.inr (Or.inl h)
    · exact Or.inr (Or.inr h)

omit hprime in
theorem frobScale_congr {q n a : Nat} {F G : CVec (ZMod q)} (hl : F.len = G.len) (h : ∀ i, i < F.len → F.e i = G.e i) :
    frobScale p n a F = frobScale p n a G := by
  have h1 : ∀ c : ZMod q, CVec.mk' G.len (fun i => F.e i * c) = CVec.mk' G.len (fun i => G.e i * c) := by
    intro c
    simp only [CVec.mk', CVec.mk.injEq, true_and]
    funext i
    split
    · next hi => rw [h i (by omega)]
    · rfl
  unfold frobScale
  simp only [hl, h1]

/-- **C47 (variants).**  `n < p`: the two Frobenius functions and the three values of `loop` return the same
vector and table, and fail in the same cases. -/
theorem C47_variants_agree (hK : 1 ≤ K) (la : LinAlg (ZMod p)) (hla : LinAlgOK la) (flint : Bool)
    (precision : ℕ) (hprec : K ≤ precision) {p' n d : ℕ} {f : MonMap (ZMod (p ^ K))} {D : DR (ZMod (p ^ K))}
    (hC : Constructed (padicSolver p K la flint precision) p' f n d D) (hn : 1 ≤ n) (hnp : n < p)
    (kind kind' : LoopKind) (coord N : Nat)
    (ei : IVec) (hc : D.basis[coord]? = some ei) (hN : 1 ≤ N)
    (hb : ∀ j, j < N → (djm (poleOrder n d ei) N j).natAbs < 2 ^ 63)
    (powers : List Int) (T : List (MonMap (ZMod (p ^ K))))
    (hT : powers.foldlM (computeFpow f) (fpowStart n) = .ok T) :
    frobFun (varZ (padicSolver p K la flint precision) D p kind) (padicSolver p K la flint precision) D p T coord N =
      frobFun (varP (padicSolver p K la flint precision) D p kind') (padicSolver p K la flint precision) D p T coord N := by
  have : NeZero (p ^ K) := ⟨pow_ne_zero _ hprime.out.ne_zero⟩
  have := nontrivial_pow (p := p) hK
  obtain ⟨e1, e2, hI⟩ := hC.init
  have hm := (basis_pole hI.basis (by have := hI.ok.hd; omega) hc).1
  rw [e1, e2] at hm
  obtain ⟨S, t1, t2, -, -⟩ := fpowCalls_ok hC.wf hC.hom powers (tableOK_start n d f)
  rw [hT] at t1
  obtain rfl := Except.ok.inj t1
  obtain ⟨S', u1, u2, u3, -⟩ := computeFpow_ok hC.wf hC.hom t2 ((N : Int) - 1)
  have hz : n / p = 0 := Nat.div_eq_of_lt hnp
  obtain ⟨F, a1, a2, ⟨c, a3, a4⟩, -⟩ := frobCore_class hC hn hprime.out.one_lt.le hc hN
    (fun L hL => varZ_ok hC hL (by omega) p kind hm (fun i j h1 h2 => by
      have h3 := hb j (by omega)
      rw [djm_natAbs] at h3
      refine lt_of_le_of_lt (le_trans ?_ (Finset.single_le_sum (f := dbin (poleOrder n d ei) j) (fun _ _ => Nat.zero_le _)
        (Finset.mem_Ico.2 ⟨h1, h2⟩))) h3
      exact Nat.le_mul_of_pos_left _ (Nat.choose_pos (by omega))) (fun j hj _ => hb j hj))
    (by rw [hz]; exact Nat.zero_le _) (fun _ => by rw [hz]; exact Nat.zero_le _) (Or.inl rfl) u2 (by omega)
  obtain ⟨G, b1, b2, ⟨c', b3, b4⟩, -⟩ := frobCore_class hC hn hprime.out.one_lt.le hc hN
    (fun L hL => varP_ok hC hL (by omega) p kind' hm hb)
    (by rw [hz]; exact Nat.zero_le _) (fun h => by cases h) (Or.inr (Or.inl hnp)) u2 (by omega)
  rw [frobFun_eq hN hc (by rw [hI.f_eq]; exact u1), frobFun_eq hN hc (by rw [hI.f_eq]; exact u1), a1, b1, Res.bind_ok,
    Res.bind_ok, frobScale_congr (F := F) (G := G) (a2.trans b2.symm) ?_]
  intro r hr
  rw [a2] at hr
  have h5 := Submodule.sub_mem _ b4 a4
  rw [sub_sub_sub_cancel_left, ← Finset.sum_sub_distrib] at h5
  have h6 : ∑ r ∈ Finset.range D.basis.length, (c r - c' r) • xpow (ZMod (p ^ K)) (ev D.n (D.basis.getD r [])) ∈
      Ex (DRpoly D) D.d := by
    rw [Finset.sum_congr rfl (fun r _ => sub_smul (c r) (c' r) (xpow (ZMod (p ^ K)) (ev D.n (D.basis.getD r []))))]
    exact h5
  have h7 := basis_indep hK hla hprec hI (fun r => c r - c' r) h6 r hr
  rw [a3 r hr, b3 r hr, sub_eq_zero.1 h7]

local instance : Fact (Nat.Prime 5) := ⟨by norm_num⟩

/-- The elliptic curve modulo 25, with `p = 5`: both basis elements, `N = 2`, and a table that earlier calls
made longer. -/
example : ∃ la : LinAlg (ZMod 5), LinAlgOK la ∧
    ∃ D, Constructed (padicSolver 5 2 la true 2) 5 exCurve 2 3 D ∧ 2 < 5 ∧
      D.basis[0]? = some [0, 0, 0] ∧ D.basis[1]? = some [1, 1, 1] ∧ poleOrder 2 3 [1, 1, 1] = 2 ∧
      (∀ i j, j ≤ i → i < 2 → i.choose j < 2 ^ 63) ∧ (∀ j, j < 2 → (djm 2 2 j).natAbs < 2 ^ 63) ∧
      ¬ 5 ^ 2 ∣ (5 * (poleOrder 2 3 [0, 0, 0] + 2 - 1) - 1).factorial ∧
      ∃ T, ([3, 1] : List Int).foldlM (computeFpow exCurve) (fpowStart 2) = .ok T := by
  obtain ⟨la, hla⟩ := exists_linAlg (ZMod 5)
  obtain ⟨D, h, hb⟩ := exCurve_padic la hla true
  obtain ⟨T, hT, -⟩ := C29_fpow_table h.wf h.hom [3, 1]
  refine ⟨la, hla, D, h, by norm_num, by rw [hb]; rfl, by rw [hb]; rfl, by decide, ?_, by decide +kernel,
    by decide +kernel, T, hT⟩
  intro i j hj hi
  interval_cases i <;> interval_cases j <;> decide

/-- So the call for the first basis element returns, for every `loop`. -/
example : ∃ la : LinAlg (ZMod 5), ∃ D : DR (ZMod (5 ^ 2)), ∃ T, ∀ kind, ∃ r,
    frobFun (varZ (padicSolver 5 2 la true 2) D 5 kind) (padicSolver 5 2 la true 2) D 5 T 0 2 = .ok r := by
  obtain ⟨la, hla⟩ := exists_linAlg (ZMod 5)
  obtain ⟨D, h, hb⟩ := exCurve_padic la hla true
  obtain ⟨T, hT, -⟩ := C29_fpow_table h.wf h.hom [3, 1]
  refine ⟨la, D, T, fun kind => ?_⟩
  refine (C47_frob_J_partial (by norm_num) h (by norm_num) kind 0 2 [0, 0, 0] (by rw [hb]; rfl) (by norm_num)
    (by decide) ?_ ?_ _ T hT).2.1 (by decide +kernel)
  · intro i j hj hi
    interval_cases i <;> interval_cases j <;> decide
  · intro j _ hj
    exact absurd hj (by rw [show 2 / 5 = 0 from rfl, show poleOrder 2 3 [0, 0, 0] = 1 by decide]; omega)

/-- The two loops of such a call, as in C31: `m = 1`, `N = 2`. -/
example : ∃ (la : LinAlg (ZMod 5)) (D : DR (ZMod (5 ^ 2))) (T : List (MonMap (ZMod (5 ^ 2))))
    (last F0 : CVec (ZMod (5 ^ 2))) (st : FrobState (ZMod (5 ^ 2))) (s : LastState (ZMod (5 ^ 2))),
    D.n / 5 ≤ 1 + 2 - 1 ∧
    downTo (D.n / 5) (frobPass (varZ (padicSolver 5 2 la true 2) D 5 .poly) D 5 T [0, 0, 0] 1 2) (1 + 2 - 1 - D.n / 5)
      ⟨1, [], last⟩ = .ok st ∧
    downTo 0 (frobLastPass (varZ (padicSolver 5 2 la true 2) D 5 .poly) (padicSolver 5 2 la true 2) D 5 T [0, 0, 0] 1 2)
      (D.n / 5 - 0) ⟨st.fact, F0, ⟨0, fun _ => 0⟩⟩ = .ok s := by
  obtain ⟨la, hla⟩ := exists_linAlg (ZMod 5)
  obtain ⟨D, h, hb⟩ := exCurve_padic la hla true
  obtain ⟨T, hT, -⟩ := C29_fpow_table h.wf h.hom [1]
  obtain ⟨e1, e2, -⟩ := h.init
  have hc : D.basis[0]? = some [0, 0, 0] := by rw [hb]; rfl
  obtain ⟨F, hF, -⟩ := C47_frob_J_sum_partial (by norm_num) h (by norm_num) .poly 0 2 [0, 0, 0] hc (by norm_num)
    (by decide) (by intro i j hj hi; interval_cases i <;> interval_cases j <;> decide) (by
      intro j _ hj
      exact absurd hj (by rw [show 2 / 5 = 0 from rfl, show poleOrder 2 3 [0, 0, 0] = 1 by decide]; omega)) [1]
    (by simp) T hT
  obtain ⟨last, F0, st, s, a1, a2, -⟩ := frobCore_runs (m := 1) hc (by rw [e1, e2]; decide) hF
  exact ⟨la, D, T, last, F0, st, s, by rw [e1]; decide, a1, a2⟩

end

/-- **C47, wrong when the last loop has two passes with terms (`n/p > m`).**  `frob_J_ZZ` multiplies `G0` in
place (`mul(G0, M, G0)`), which shortens it to the length of the basis and keeps the rest of the storage; the
next pass clears the short vector only and lengthens it again.  So `G0` starts with old values: for every old
`G0` with a non-zero entry at an index past the length of the basis, that entry is still there. -/
theorem C47_stale_storage_wrong {R : Type} [CommRing R] (G0 g : CVec R) (len i : Nat) (hi : i < len)
    (hg : g.len ≤ i) (h : G0.e i ≠ 0) :
    ((G0.assign g).clearSet len).len = len ∧ ((G0.assign g).clearSet len).e i ≠ 0 := by
  refine ⟨rfl, ?_⟩
  have h1 : ¬ i < (G0.assign g).len := by
    show ¬ i < g.len
    omega
  simp only [CVec.clearSet, if_neg h1, CVec.assign, if_neg (show ¬ i < g.len by omega)]
  exact h

/-- `frob_J_ZZ` is the variant that writes back, `frob_J_ZZ_p` does not. -/
example : (varZ (q := 25) exSolve ⟨2, 3, [], [], [], [], []⟩ 5 .poly).reuse = true ∧
    ((⟨3, fun i => (i : Int) + 1⟩ : CVec Int).assign ⟨2, fun _ => 0⟩).clearSet 3 = ⟨3, fun i => if i < 2 then 0 else (i : Int) + 1⟩ := by
  refine ⟨rfl, ?_⟩
  simp only [CVec.assign, CVec.clearSet, CVec.mk.injEq, true_and]
  funext i
  split <;> rfl

end Verif
