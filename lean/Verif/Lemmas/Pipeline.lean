import Verif.Spec.Pipeline
import Verif.Model.Pipeline
import Verif.Props.Zeta
import Verif.Props.FrobMatrixND
import Verif.Props.Construct

/-!
Lemmas on the two branches of `zeta_function` put together.
-/

namespace Verif

open Spec MvPolynomial

/-- When `p` divides the degree the partial derivatives always have a common zero (degree at least 3). -/
theorem not_smooth {F : Type} [Field F] {n d : ℕ} (hd : 3 ≤ d) (hF : (d : F) = 0) {P : MvPolynomial (Fin (n + 1)) F}
    (hP : P.IsHomogeneous d) : ¬ NoCommonZero.{0} (fun i => pderiv i P) := by
  intro h
  obtain ⟨M, hM⟩ := pow_mem_of_noCommonZero h
  have hg : ∀ i, (pderiv i P).IsHomogeneous (d - 1) := fun i => hP.pderiv
  obtain ⟨A, -, -, -, -, h5, h6⟩ := trivSyz_full hg hM 1 (fun i => X i) (fun i => isHomogeneous_X F i)
    (fun i hi => absurd i.isLt (by omega)) (by
      simp only [mul_comm (pderiv _ P)]
      rw [hP.sum_X_mul_pderiv]
      rw [nsmul_eq_mul, ← map_natCast (C : F →+* _), hF, map_zero, zero_mul])
  have h7 := h6 0
  simp only [h5 (by omega), zero_mul, Finset.sum_const_zero] at h7
  exact X_ne_zero 0 h7

/-! ### Bounds -/

/-- With fewer terms the coefficients are smaller. -/
theorem termsFit_mono {n : ℕ} {N N' : ℤ} (h : TermsFit n N) (hN : N' ≤ N) : TermsFit n N' := by
  intro m j h1 h2 hj
  have h3 := h m j h1 h2 (by omega)
  rw [djm_natAbs] at h3 ⊢
  exact lt_of_le_of_lt (Finset.sum_le_sum_of_subset (Finset.Ico_subset_Ico_right (by omega))) h3

/-- All coefficients for given `m` and `N`. -/
def fitsB (m N : ℕ) : Bool := (List.range N).all (fun j => decide (((List.range' j (N - j)).map (dbin m j)).sum < 2 ^ 63))

theorem fitsB_iff (m N : ℕ) : fitsB m N = true ↔ ∀ j < N, (djm m N j).natAbs < 2 ^ 63 := by
  simp only [fitsB, List.all_eq_true, List.mem_range, decide_eq_true_eq]
  refine forall₂_congr (fun j _ => ?_)
  rw [djm_natAbs]
  rfl

theorem fitsB_table : fitsB 1 66 = true ∧ fitsB 1 67 = false ∧ fitsB 2 60 = true ∧ fitsB 2 61 = false ∧ fitsB 3 55 = true ∧
    fitsB 3 56 = false ∧ fitsB 1 60 = true ∧ fitsB 1 55 = true ∧ fitsB 2 55 = true := by
  decide +kernel

theorem termsFit_of_table {n k : ℕ} (h : ∀ m, 1 ≤ m → m ≤ n → fitsB m k = true) {N : ℤ} (hN : N ≤ k) : TermsFit n N :=
  termsFit_mono (N := (k : ℤ)) (fun m j h1 h2 hj => (fitsB_iff m k).1 (h m h1 h2) j (by exact_mod_cast hj)) hN

theorem not_termsFit_of_table {n k : ℕ} (hn : 1 ≤ n) (h : fitsB n k = false) {N : ℤ} (hN : (k : ℤ) ≤ N) : ¬ TermsFit n N := fun hf => by
  have := (fitsB_iff n k).2 (fun j hj => termsFit_mono hf hN n j hn le_rfl (by exact_mod_cast hj))
  rw [h] at this
  cases this

/-- Up to 50 terms for surfaces and curves. -/
theorem termsFit_three {n : ℕ} {N : ℤ} (hn : n ≤ 3) (hN : N ≤ 50) : TermsFit n N :=
  termsFit_of_table (k := 55) (fun m h1 h2 => by
    obtain ⟨-, -, -, -, t3, -, -, t1, t2⟩ := fitsB_table
    obtain rfl | rfl | rfl : m = 1 ∨ m = 2 ∨ m = 3 := by omega
    · exact t1
    · exact t2
    · exact t3) (by push_cast; omega)

/-- In any dimension, when `n + 2 N <= 64`. -/
theorem termsFit_sum {n : ℕ} {N : ℤ} (h : n + 2 * N ≤ 64) : TermsFit n N := by
  intro m j h1 h2 hj
  rw [djm_natAbs]
  have hi : ∀ i ∈ Finset.Ico j N.toNat, dbin m j i ≤ 2 ^ (m - 1) * 4 ^ i := by
    intro i _
    calc dbin m j i ≤ 2 ^ (m + i - 1) * 2 ^ i := Nat.mul_le_mul (Nat.choose_le_two_pow _ _) (Nat.choose_le_two_pow _ _)
      _ = 2 ^ (m - 1) * 4 ^ i := by
        rw [show (4 : ℕ) = 2 ^ 2 from rfl, ← pow_mul, ← pow_add, ← pow_add]; congr 1; omega
  have h4 : ∀ M : ℕ, ∑ i ∈ Finset.range M, 4 ^ i < 4 ^ M := by
    intro M
    induction M with
    | zero => simp
    | succ M ih => rw [Finset.sum_range_succ, pow_succ]; omega
  calc ∑ i ∈ Finset.Ico j N.toNat, dbin m j i ≤ ∑ i ∈ Finset.Ico j N.toNat, 2 ^ (m - 1) * 4 ^ i := Finset.sum_le_sum hi
    _ ≤ ∑ i ∈ Finset.range N.toNat, 2 ^ (m - 1) * 4 ^ i := by
        refine Finset.sum_le_sum_of_subset (fun i hi => ?_)
        exact Finset.mem_range.2 (Finset.mem_Ico.1 hi).2
    _ = 2 ^ (m - 1) * ∑ i ∈ Finset.range N.toNat, 4 ^ i := by rw [Finset.mul_sum]
    _ < 2 ^ (m - 1) * 4 ^ N.toNat := Nat.mul_lt_mul_of_pos_left (h4 _) (by positivity)
    _ = 2 ^ (m - 1 + 2 * N.toNat) := by rw [show (4 : ℕ) = 2 ^ 2 from rfl, ← pow_mul, ← pow_add]
    _ ≤ 2 ^ 63 := Nat.pow_le_pow_right (by norm_num) (by omega)

theorem Spec.TermsFit.choose {n : ℕ} {N : ℤ} (h : TermsFit n N) (hn : 1 ≤ n) {i j : ℕ} (hj : j ≤ i) (hi : (i : ℤ) < N) :
    i.choose j < 2 ^ 63 := by
  have h1 := h 1 j le_rfl hn (by omega)
  rw [djm_natAbs] at h1
  refine lt_of_le_of_lt ?_ h1
  refine (dbin_pos_left (m := 1) le_rfl).trans ?_
  exact Finset.single_le_sum (f := dbin 1 j) (fun _ _ => Nat.zero_le _) (Finset.mem_Ico.2 ⟨hj, by omega⟩)

/-! ### The loop over the basis fails only as its calls do -/

section

variable {q : ℕ} {frob : FrobF q} {n d : ℕ} {basis : List IVec} {prec : List ℤ}

theorem mIter_error {T : List (MonMap (ZMod q))} {rows : ℕ → CVec (ZMod q)} {i : ℕ} {b : IVec} {Ni : ℤ} (hd : d ≠ 0)
    (hb : basis[i]? = some b) (hNi : iget prec ((sumVec b + n + 1) / d - 1) = .ok Ni)
    (hlen : ∀ r, 0 < Ni → frob T i Ni.toNat = .ok r → r.1.len = basis.length) {e : Fail}
    (h : mIter frob n d basis prec (T, rows) i = .error e) : 0 < Ni ∧ frob T i Ni.toNat = .error e := by
  have h1 : aget basis i = .ok b := by rw [aget, hb]
  rw [mIter, h1, Res.bind_ok, if_neg hd, hNi, Res.bind_ok] at h
  by_cases hp : 0 < Ni
  · rw [if_pos hp] at h
    refine ⟨hp, ?_⟩
    cases hr : frob T i Ni.toNat with
    | error e' => rw [hr, Res.bind_error] at h; rw [Except.error.inj h]
    | ok r =>
      rw [hr, Res.bind_ok, if_pos (hlen r hp hr)] at h
      cases h
  · rw [if_neg hp] at h; cases h

theorem mFold_error (hd : d ≠ 0) (P : List (MonMap (ZMod q)) → Prop)
    (hidx : ∀ (i : ℕ) b, basis[i]? = some b → ∃ Ni, iget prec ((sumVec b + n + 1) / d - 1) = .ok Ni)
    (hok : ∀ T (i : ℕ) Ni r, i < basis.length → P T → Ni ∈ prec → 0 < Ni → frob T i Ni.toNat = .ok r →
      P r.2 ∧ r.1.len = basis.length)
    (herr : ∀ T (i : ℕ) Ni e, i < basis.length → P T → Ni ∈ prec → 0 < Ni → frob T i Ni.toNat = .error e → e = .assertFail) :
    ∀ (order : List ℕ), (∀ i ∈ order, i < basis.length) → ∀ T rows e, P T →
      order.foldlM (mIter frob n d basis prec) (T, rows) = .error e → e = .assertFail := by
  intro order
  induction order with
  | nil => intro _ T rows e _ h; cases h
  | cons i order ih =>
    intro hlt T rows e hT h
    rw [List.foldlM_cons] at h
    have hi := hlt i (by simp)
    have hb : basis[i]? = some basis[i] := List.getElem?_eq_getElem hi
    obtain ⟨Ni, hNi⟩ := hidx i _ hb
    cases hs : mIter frob n d basis prec (T, rows) i with
    | error e' =>
      rw [hs, Res.bind_error] at h
      obtain rfl := Except.error.inj h
      obtain ⟨hp, h1⟩ := mIter_error hd hb hNi (fun r hp hr => (hok T i Ni r hi hT (iget_mem hNi) hp hr).2) hs
      exact herr T i Ni _ hi hT (iget_mem hNi) hp h1
    | ok s =>
      rw [hs, Res.bind_ok] at h
      obtain ⟨T', rows'⟩ := s
      refine ih (fun j hj => hlt j (by simp [hj])) T' rows' e ?_ h
      obtain ⟨b, Nj, h1, -, h2, h3⟩ := mIter_ok_iff.1 hs
      rcases h3 with ⟨-, h3⟩ | ⟨hp, r, h3, -, h4⟩
      · rw [(Prod.mk.inj h3).1]; exact hT
      · rw [(Prod.mk.inj h4).1]; exact (hok T i Nj r hi hT (iget_mem h2) hp h3).1

end

theorem pole_iget {n d : ℕ} {b : IVec} {N : List ℤ} (h1 : 1 ≤ poleOrder n d b) (h2 : poleOrder n d b ≤ n) (hN : N.length = n) :
    ∃ Ni, iget N ((sumVec b + n + 1) / d - 1) = .ok Ni ∧ N[poleOrder n d b - 1]? = some Ni := by
  have hs : ((sumVec b + n + 1) / d).toNat = poleOrder n d b := poleOrder_sumVec _ _ _
  have h3 : ((sumVec b + n + 1) / (d : ℤ) - 1).toNat = poleOrder n d b - 1 := by omega
  have h4 : N[poleOrder n d b - 1]? = some N[poleOrder n d b - 1] := List.getElem?_eq_getElem (by omega)
  exact ⟨_, by rw [iget, if_neg (by omega), h3, aget, h4], h4⟩

theorem reached_start {q : ℕ} (n : ℕ) (f : MonMap (ZMod q)) : Reached n f (fpowStart n) := ⟨[], rfl⟩

theorem maxVec_ok {N : List ℤ} (h : N ≠ []) : ∃ m, maxVec N = .ok m := by
  cases N with
  | nil => exact absurd rfl h
  | cons a l => exact ⟨_, rfl⟩

theorem prepare_reached {q n d : ℕ} [Nontrivial (ZMod q)] {f : MonMap (ZMod q)} (hf : WFPoly (n + 1) f)
    (hh : ∀ e ∈ f, deg e.1 = d) {T : List (MonMap (ZMod q))} (hT : Reached n f T) (pre : Bool) {N : List ℤ} (hN : N ≠ []) :
    ∃ T0, frobPrepare pre f T N = .ok T0 ∧ Reached n f T0 := by
  cases pre with
  | false => exact ⟨T, rfl, hT⟩
  | true =>
    obtain ⟨m, hm⟩ := maxVec_ok hN
    obtain ⟨powers, hpow⟩ := hT
    obtain ⟨T0, hT0, -⟩ := C29_fpow_table hf hh (powers ++ [m - 1])
    refine ⟨T0, ?_, ⟨_, hT0⟩⟩
    rw [List.foldlM_append, hpow] at hT0
    rw [frobPrepare, if_pos rfl, hm, Res.bind_ok]
    have h1 : (computeFpow f T (m - 1) >>= pure) = .ok T0 := hT0
    rwa [bind_pure] at h1

/-! ### The numbers of terms -/

theorem defaultPairs_mem {p n d : ℤ} {a : DefaultArgs} (h : defaultArgs p n d = .ok a) : (n, d) ∈ defaultPairs := by
  by_contra hn
  rw [(C12_domain p n d).2 hn] at h
  cases h

theorem default_terms {p n d : ℤ} {a : DefaultArgs} (h : defaultArgs p n d = .ok a) : ∀ x ∈ a.N, x ≤ 50 := by
  have hmem := defaultPairs_mem h
  simp only [defaultPairs, List.mem_cons, Prod.mk.injEq, List.not_mem_nil, or_false] at hmem
  obtain ⟨rfl, rfl⟩ | ⟨rfl, rfl⟩ | ⟨rfl, rfl⟩ | ⟨rfl, rfl⟩ | ⟨rfl, rfl⟩ | ⟨rfl, rfl⟩ | ⟨rfl, rfl⟩ | ⟨rfl, rfl⟩ |
    ⟨rfl, rfl⟩ | ⟨rfl, rfl⟩ := hmem
  · rw [da_2_3] at h; split_ifs at h <;> (cases h; simp)
  · rw [da_2_4] at h; split_ifs at h <;> (cases h; simp)
  · rw [da_2_5] at h; split_ifs at h <;> (cases h; simp)
  · rw [da_2_6] at h; split_ifs at h <;> (cases h; simp)
  · rw [da_2_7] at h; split_ifs at h <;> (cases h; simp)
  · rw [da_2_8] at h; split_ifs at h <;> (cases h; simp)
  · rw [da_2_9] at h; split_ifs at h <;> (cases h; simp)
  · rw [da_3_4] at h; split_ifs at h <;> (cases h; simp)
  · rw [da_3_5] at h; split_ifs at h <;> (cases h; simp)
  · rw [da_3_6] at h; split_ifs at h <;> (cases h; simp)

theorem pairs_bounds {n d : ℕ} (h : ((n : ℤ), (d : ℤ)) ∈ defaultPairs) : 2 ≤ n ∧ n ≤ 3 ∧ 3 ≤ d ∧ n < d := by
  simp only [defaultPairs, List.mem_cons, Prod.mk.injEq, List.not_mem_nil, or_false] at h
  omega

theorem terms_bound {p : ℕ} (hp : p.Prime) {n d : ℕ} {abs : ℤ} {increase : Bool} {a : DefaultArgs}
    (ha : defaultArgs p n d = .ok a) {z : ZetaPrec} (hz : choosePrec p n d abs increase = .ok z) :
    z.N.length = n ∧ (∀ x ∈ z.N, x ≤ max 50 abs) ∧ z.charpolyPrec = a.charpolyPrec := by
  have hterm := default_terms ha
  have hlen : a.N.length = n := by
    obtain ⟨-, ⟨h, x, y, h2, -⟩ | ⟨h, x, y, w, h2, -⟩⟩ := tabNum_ok ha
    · rw [h2]; simp; omega
    · rw [h2]; simp; omega
  by_cases h0 : 0 < abs
  · rcases C40_precision p hp n d abs increase a ha h0 with ⟨z', hz', hs⟩ | ⟨hz', -⟩
    · rw [hz] at hz'
      obtain rfl := Except.ok.inj hz'
      refine ⟨by have := hs.len; omega, fun x hx => ?_, hs.charpoly⟩
      obtain ⟨i, hi, rfl⟩ := List.getElem_of_mem hx
      have hin : (i : ℤ) < n := by have := hs.len; omega
      have h1 := hs.terms i hin
      rw [getD_getElem _ _ _ hi] at h1
      rw [h1]
      have h2 : a.N.getD i 0 ≤ 50 := by
        rw [getD_getElem _ _ _ (by omega)]
        exact hterm _ (List.getElem_mem _)
      split_ifs
      · exact max_le_max_right _ h2
      · exact le_max_right _ _
      · exact le_max_of_le_left (by norm_num)
    · rw [hz] at hz'; cases hz'
  · rw [C40_precision_default p n d abs increase (by omega), ha] at hz
    obtain rfl := Except.ok.inj hz
    exact ⟨hlen, fun x hx => le_max_of_le_left (hterm x hx), rfl⟩

theorem trimMat_ofMatrix {R : Type} [Zero R] (M : CMat R) {b : ℕ} (hr : M.rows = b) (hc : M.cols = b) :
    trimMat M = CMat.ofMatrix (Matrix.of (fun i j : Fin b => M.e i j)) := by
  rw [trimMat, hr, hc]
  exact CMat.mk'_eq_ofMatrix _ _ (fun i j => rfl)

end Verif
