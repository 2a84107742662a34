import Verif.Props.Poly
import Verif.Lemmas.PolyI64
import Verif.Props.NDBatch

/-!
# C11: no overflow

The coefficients in `change_of_variables_monomial` are `int64_t`.
-/

namespace Verif

open Spec MvPolynomial

/-- **C11 (64 bits).**  For all `u >= 0` and `v` of equal length with `∏ (1 + |v_i|)^(u_i) < 2^63` (and binomials below
`2^63`): no sum or product of coefficients overflows, and the function returns the expansion of
`∏_i (x_i + v_i x)^(u_i)`, as with unbounded coefficients. -/
theorem C11_no_overflow_partial (u v : IVec) (hlen : u.length = v.length) (hu : NonNeg u)
    (hb : ∀ a ∈ u, ∀ j, a.toNat.choose j < 2 ^ 63)
    (hv : ∏ i ∈ Finset.range u.length, (1 + (v.getD i 0).natAbs) ^ (u.getD i 0).toNat < 2 ^ 63) :
    ∃ r, changeOfVariablesMonomial64 u v = .ok r ∧ changeOfVariablesMonomial u v = .ok r ∧ WFPoly (u.length + 1) r ∧
      toPoly (u.length + 1) r = ∏ i : Fin u.length,
        (X i.castSucc + C (v.getD i 0) * X (Fin.last u.length)) ^ (u.getD i 0).toNat := by
  obtain ⟨r, hr, w1, w2⟩ := C11_shifted_monomial_partial u v hlen hu hb
  set n := u.length with hn
  set P : Nat → Nat := fun m => ∏ i ∈ Finset.range m, (1 + (v.getD i 0).natAbs) ^ (u.getD i 0).toNat with hP
  have hv' : P n < 2 ^ 63 := hv
  have hpos : ∀ m, 0 < P m := fun m => Finset.prod_pos (fun i _ => Nat.pow_pos (by omega))
  have hmono : ∀ m, m ≤ n → P m ≤ P n := fun m hm =>
    Finset.prod_le_prod_of_subset_of_one_le' (by simpa using hm) (fun i _ _ => Nat.one_le_pow _ _ (by omega))
  have h0 : WFPoly (n + 1) ([(List.replicate (n + 1) 0, 1)] : MonMap Int) := by
    refine ⟨?_, by simp⟩
    intro e he
    rw [List.mem_singleton] at he
    subst he
    exact ⟨by simp, nonNeg_replicate _⟩
  have key : ∀ m, m ≤ n → ∃ H : MonMap Int,
      forRange m [(List.replicate (n + 1) 0, 1)] (fun i H => do
        let X ← monomialExtended64 n i (u.getD i 0) (v.getD i 0)
        mulMaps64 H X) = .ok H ∧
      forRange m [(List.replicate (n + 1) 0, 1)] (fun i H => do
        let X ← monomialExtended n i (u.getD i 0) (v.getD i 0)
        mulMaps H X) = .ok H ∧ WFPoly (n + 1) H ∧ l1 H ≤ P m := by
    intro m
    induction m with
    | zero => intro _; exact ⟨_, rfl, rfl, h0, by simp [l1, hP]⟩
    | succ m ih =>
      intro hm
      obtain ⟨H, e1, e2, e3, e4⟩ := ih (by omega)
      have hstep : P (m + 1) = P m * (1 + (v.getD m 0).natAbs) ^ (u.getD m 0).toNat := Finset.prod_range_succ _ _
      have hle := hmono (m + 1) hm
      have hone : (1 + (v.getD m 0).natAbs) ^ (u.getD m 0).toNat ≤ P (m + 1) := by
        rw [hstep]; exact Nat.le_mul_of_pos_left _ (hpos m)
      have hmem : u.getD m 0 ∈ u := by
        rw [getD_getElem _ _ _ (by omega)]; exact List.getElem_mem _
      have hnn : 0 ≤ u.getD m 0 := nonNeg_getD hu m
      obtain ⟨X, x1, x2, x3⟩ := monomialExtended64_ok n ⟨m, by omega⟩ (u.getD m 0) (v.getD m 0) hnn (hb _ hmem)
        (by omega)
      obtain ⟨X', y1, y2, -⟩ := monomialExtended_ok n ⟨m, by omega⟩ (u.getD m 0) (v.getD m 0) hnn (hb _ hmem)
      rw [x2] at y1
      obtain rfl := Except.ok.inj y1
      have hmul : l1 H * l1 X ≤ P (m + 1) := by rw [hstep]; exact Nat.mul_le_mul e4 x3
      obtain ⟨r, r1, r2, r3, r4⟩ := mulMaps64_ok (Nat.succ_pos n) e3 y2 (by omega)
      refine ⟨r, ?_, ?_, r3, r4.trans hmul⟩
      · rw [forRange, e1, Res.bind_ok, x1, Res.bind_ok, r1]
      · rw [forRange, e2, Res.bind_ok, x2, Res.bind_ok, r2]
  obtain ⟨H, e1, e2, -, -⟩ := key n le_rfl
  have hH : changeOfVariablesMonomial u v = .ok H := by
    rw [changeOfVariablesMonomial, decide_eq_true (by rw [← hn]; exact hlen), check_true, Res.bind_ok]
    exact e2
  rw [hr] at hH
  obtain rfl := Except.ok.inj hH
  refine ⟨r, ?_, hr, w1, w2⟩
  rw [changeOfVariablesMonomial64, decide_eq_true (by rw [← hn]; exact hlen), check_true, Res.bind_ok]
  exact e1

/-- Keys of degree 4 in four variables and a direction of degree 4, as for a quartic surface: the bound is `5^4`. -/
example : changeOfVariablesMonomial64 [1, 0, 2, 1] [0, 3, 1, 0] = changeOfVariablesMonomial [1, 0, 2, 1] [0, 3, 1, 0] := by
  obtain ⟨r, h1, h2, -⟩ := C11_no_overflow_partial [1, 0, 2, 1] [0, 3, 1, 0] rfl
    (by show ∀ x ∈ ([1, 0, 2, 1] : List Int), 0 ≤ x; decide) (by
    intro a ha j
    have h : a.toNat ≤ 2 := by revert a; decide
    exact lt_of_le_of_lt ((Nat.choose_le_two_pow _ _).trans (Nat.pow_le_pow_right (by decide) h)) (by norm_num)) (by decide)
  rw [h1, h2]

theorem sum_range_getD : ∀ u : IVec, ∑ i ∈ Finset.range u.length, u.getD i 0 = u.sum
  | [] => by simp
  | a :: u => by
    rw [List.length_cons, Finset.sum_range_succ', List.sum_cons, ← sum_range_getD u, add_comm]
    simp

/-- The bound for a key of degree at most `b` and a direction of degree `d`. -/
theorem prod_bound {u v : IVec} {b d : Nat} (hlen : u.length = v.length) (hu : NonNeg u) (hb : u.sum ≤ b)
    (hv : NonNeg v) (hd : v.sum = d) :
    ∏ i ∈ Finset.range u.length, (1 + (v.getD i 0).natAbs) ^ (u.getD i 0).toNat ≤ (1 + d) ^ b := by
  have hvi : ∀ i, (v.getD i 0).natAbs ≤ d := by
    intro i
    have h0 := nonNeg_getD hv i
    by_cases hi : i < v.length
    · rw [getD_getElem _ _ _ hi] at h0 ⊢
      have := List.single_le_sum (fun x hx => hv x hx) _ (List.getElem_mem hi)
      omega
    · rw [List.getD_eq_getElem?_getD, List.getElem?_eq_none (by omega)]; simp
  have hsum : ∑ i ∈ Finset.range u.length, (u.getD i 0).toNat ≤ b := by
    have h1 : ((∑ i ∈ Finset.range u.length, (u.getD i 0).toNat : Nat) : Int) = u.sum := by
      push_cast
      rw [← sum_range_getD u]
      exact Finset.sum_congr rfl (fun i _ => Int.toNat_of_nonneg (nonNeg_getD hu i))
    omega
  refine (Finset.prod_le_prod' (fun i _ => Nat.pow_le_pow_left (show _ ≤ 1 + d by have := hvi i; omega) _)).trans ?_
  rw [Finset.prod_pow_eq_pow_sum]
  exact Nat.pow_le_pow_right (by omega) hsum

/-- **C11 (where it is used).**  For every object built by the constructor with `(1+d)^(n+1) < 2^63` and every
direction `v` of degree `d`, `compute_reduction_matrix_ND_poly(v)` with 64-bit coefficients returns what it returns with
unbounded ones; nothing overflows. -/
theorem C11_ND_poly_partial {R : Type} [CommRing R] [DecidableEq R] {solve : Solver R} {p n d : Nat} {f : MonMap R} {N : ND R}
    (hC : ConstructedND solve p f n d N) (hn : 1 ≤ n) (hb : (1 + d) ^ (n + 1) < 2 ^ 63) (v : IVec)
    (hv : IsTuple (n + 1) d v) :
    redMatNDPoly64 solve N v = redMatNDPoly solve N v ∧ ∃ E, redMatNDPoly solve N v = .ok E := by
  obtain ⟨rfl, rfl, hI⟩ := hC.init
  have hN := hI.nd hn
  have hd := hN.dr.hd
  have h61 := n_le_of_size hd hC.size
  obtain ⟨Ms, e, hMs, -⟩ := redMatND_ok hC.solver hN hv
  obtain ⟨E, e1, -⟩ := redMatNDPoly_ok h61 hN.head.1 hv.1 e hMs
  refine ⟨?_, E, e1⟩
  have hkey : ∀ t ∈ Ms, changeOfVariablesMonomial64 t.1 v = changeOfVariablesMonomial t.1 v := by
    intro t ht
    have hk := (hMs.entry t ht).1
    obtain ⟨r, r1, r2, -⟩ := C11_no_overflow_partial t.1 v (by rw [hk.len, hv.1]) hk.nonneg (by
      intro a ha j
      have h1 := List.single_le_sum (fun x hx => hk.nonneg x hx) a ha
      have h2 := hk.deg
      have h3 : a.toNat ≤ 62 := by omega
      exact lt_of_le_of_lt ((Nat.choose_le_two_pow _ _).trans (Nat.pow_le_pow_right (by decide) h3)) (by norm_num))
      (lt_of_le_of_lt (prod_bound (by rw [hk.len, hv.1]) hk.nonneg hk.deg hv.2.1 hv.2.2) hb)
    rw [r1, r2]
  have hfold : ∀ (l : MonMap (CMat R)) (res : MonMap (CMat R)),
      (∀ t ∈ l, changeOfVariablesMonomial64 t.1 v = changeOfVariablesMonomial t.1 v) →
      l.foldlM (fun res e => do
        let mons ← changeOfVariablesMonomial64 e.1 v
        expandInto N.ndBasis.length (decide (headSum (N.n + 1) e.1 = N.n + 1)) e.2 mons res) res =
      l.foldlM (fun res e => do
        let mons ← changeOfVariablesMonomial e.1 v
        expandInto N.ndBasis.length (decide (headSum (N.n + 1) e.1 = N.n + 1)) e.2 mons res) res := by
    intro l
    induction l with
    | nil => intro res _; rfl
    | cons t l ih =>
      intro res h
      rw [List.foldlM_cons, List.foldlM_cons, h t (by simp)]
      exact congrArg _ (funext fun x => ih x (fun t ht => h t (List.mem_cons_of_mem _ ht)))
  rw [redMatNDPoly64, redMatNDPoly, e, Res.bind_ok, Res.bind_ok, hfold Ms [] hkey]

/-- Case for `C11_ND_poly_partial`: the cubic in two variables, `4^2 < 2^63`. -/
example : ∃ N, ConstructedND exSolve 5 exCubic 1 3 N ∧ (1 + 3) ^ (1 + 1) < 2 ^ 63 ∧ IsTuple (1 + 1) (3 : Nat) [2, 1] ∧
    ∃ E, redMatNDPoly64 exSolve N [2, 1] = .ok E := by
  obtain ⟨N, hC, -⟩ := exCubic_constructedND
  have hv : IsTuple (1 + 1) (3 : Nat) [2, 1] := by unfold IsTuple NonNeg deg; decide
  obtain ⟨h1, E, h2⟩ := C11_ND_poly_partial hC le_rfl (by norm_num) [2, 1] hv
  exact ⟨N, hC, by norm_num, hv, E, h1.trans h2⟩

/-- **C11 (without the bound).**  For `u = (2)` and every `v = (b)` with `b^2 >= 2^63`, `power_long(b, 2)` overflows and
the call has undefined behaviour; with unbounded coefficients it returns. -/
theorem C11_overflow_wrong (b : Int) (hb : 2 ^ 63 ≤ b ^ 2) :
    changeOfVariablesMonomial64 [2] [b] = .error .ub ∧ ∃ r, changeOfVariablesMonomial [2] [b] = .ok r := by
  constructor
  · have h2 : i64 (b ^ 2) = .error .ub := by rw [i64, if_neg (by omega)]
    have hme : monomialExtended64 1 0 2 b = .error .ub := by
      rw [monomialExtended64, show ((2 : Int) + 1).toNat = 2 + 1 from rfl, forRange]
      have hbin : binomial 2 (2 : Nat) = .ok 1 := by decide +kernel
      have hpre : ∀ (x : Res (MonMap Int)), (x = .error .ub ∨ ∃ m, x = .ok m) →
          (x >>= fun m => do
            let b' ← binomial 2 (2 : Nat)
            let w ← i64 (b ^ 2)
            let c ← i64 (b' * w)
            pure (MonMap.set m (((List.replicate (1 + 1) 0).set 0 ((2 : Int) - (2 : Nat))).set 1 ((2 : Nat) : Int)) c))
          = .error .ub := by
        rintro x (rfl | ⟨m, rfl⟩)
        · rfl
        · rw [Res.bind_ok, hbin, Res.bind_ok, h2]; rfl
      refine hpre _ ?_
      have hi : ∀ x, i64 x = .error .ub ∨ i64 x = .ok x := by
        intro x; unfold i64; split
        · exact Or.inr rfl
        · exact Or.inl rfl
      have e0 : binomial 2 (0 : Nat) = .ok 1 := by decide +kernel
      have e1 : binomial 2 (1 : Nat) = .ok 2 := by decide +kernel
      simp only [forRange, Res.bind_ok, e0, e1, pow_zero, pow_one]
      rw [show i64 1 = .ok 1 by decide, Res.bind_ok, show i64 (1 * 1) = .ok (1 * 1) by decide, Res.bind_ok, Res.pure_eq,
        Res.bind_ok]
      rcases hi b with h | h
      · left; rw [h]; rfl
      · rw [h, Res.bind_ok]
        rcases hi (2 * b) with h' | h'
        · left; rw [h']; rfl
        · right; rw [h', Res.bind_ok]; exact ⟨_, rfl⟩
    rw [changeOfVariablesMonomial64, show decide (List.length [(2 : Int)] = List.length [b]) = true from rfl, check_true,
      Res.bind_ok]
    dsimp only [List.length_cons, List.length_nil]
    rw [forRange, forRange, Res.bind_ok]
    show (monomialExtended64 1 0 2 b >>= _) = _
    rw [hme]; rfl
  · obtain ⟨r, h, -⟩ := C11_shifted_monomial_partial [2] [b] rfl (by show ∀ x ∈ ([2] : List Int), 0 ≤ x; decide) (by
      intro a ha j
      obtain rfl := List.mem_singleton.mp ha
      exact lt_of_le_of_lt (Nat.choose_le_two_pow _ _) (by decide))
    exact ⟨r, h⟩

example : (2 : Int) ^ 63 ≤ (2 ^ 32) ^ 2 := by norm_num

end Verif
