import Verif.Model.ND
import Verif.Lemmas.DeRhamInit
import Verif.Lemmas.FrobSum

/-! `matrix_ND`, `get_solve_ND` and the constructor of the non-degenerate object. -/

namespace Verif

open Spec MvPolynomial

variable {R : Type} [CommRing R]

/-- The operator `x_i ∂_i`. -/
noncomputable def xd {n : Nat} (i : Fin (n + 1)) (f : MvPolynomial (Fin (n + 1)) R) :
    MvPolynomial (Fin (n + 1)) R := X i * pderiv i f

/-- The coefficient of `x^s` in `x^t x_i ∂_i f`, summed over the terms of `f`. -/
def torCoeff (f : MonMap R) (i : Nat) (t s : IVec) : R :=
  (f.map (fun e => if List.zipWith (· + ·) e.1 t = s then ((e.1.getD i 0 : Int) : R) * e.2 else 0)).sum

theorem coeff_tor {n : Nat} (f : MonMap R) (hf : ∀ e ∈ f, e.1.length = n + 1 ∧ NonNeg e.1)
    (i : Fin (n + 1)) {t s : IVec} (ht : t.length = n + 1) (ht' : NonNeg t) (hs : s.length = n + 1)
    (hs' : NonNeg s) :
    coeff (expo (n + 1) s) (xpow R (ev n t) * xd i (toPoly (n + 1) f)) = torCoeff f i t s := by
  induction f with
  | nil => simp [toPoly, torCoeff, xd]
  | cons e f ih =>
    have he := hf e (by simp)
    have hih := ih (fun e h => hf e (by simp [h]))
    rw [xd] at hih
    rw [xd, toPoly_cons, map_add, mul_add, mul_add, coeff_add, hih, torCoeff,
      torCoeff, List.map_cons, List.sum_cons]
    congr 1
    rw [X_mul_pderiv_monomial, xpow_ev ht', smul_monomial, monomial_mul, one_mul, coeff_monomial,
      add_comm (expo (n + 1) t), ← expo_add _ _ _ (by rw [he.1, ht]) he.2 ht']
    by_cases h1 : List.zipWith (· + ·) e.1 t = s
    · rw [if_pos (by rw [h1]), if_pos h1, expo_apply, nsmul_eq_mul]
      congr 1
      rw [← Int.cast_natCast, Int.toNat_of_nonneg (nonNeg_getD he.2 i)]
    · rw [if_neg, if_neg h1]
      intro e2
      exact h1 (expo_inj (by simp [he.1, ht]) hs (nonNeg_add he.2 ht') hs' e2)

theorem torCoeff_append (f : MonMap R) (e : IVec × R) (i : Nat) (t s : IVec) :
    torCoeff (f ++ [e]) i t s = torCoeff f i t s
      + (if List.zipWith (· + ·) e.1 t = s then ((e.1.getD i 0 : Int) : R) * e.2 else 0) := by
  simp [torCoeff]

theorem matrixNDCol_ok {n : Nat} {d : Nat} (f : MonMap R) (hf : WFPoly (n + 1) f)
    (hh : ∀ e ∈ f, deg e.1 = d) {l : Int} {L : List IVec} (hL : IsTable n l L) {t : IVec}
    (ht : IsTuple (n + 1) (l - d) t) (i : Nat) (col : Nat) (M : CMat R)
    (hr : M.rows = L.length) (hc : col < M.cols) (h0 : ∀ r, M.e r col = 0) :
    ∃ M', matrixNDCol f (buildDict L) t i col M = .ok M' ∧ M'.rows = M.rows ∧ M'.cols = M.cols ∧
      (∀ r c, c ≠ col → M'.e r c = M.e r c) ∧
      ∀ r, r < L.length → M'.e r col = torCoeff f i t (L.getD r []) := by
  suffices H : ∀ (pre post : MonMap R), f = pre ++ post → ∀ M : CMat R, M.rows = L.length →
      col < M.cols → (∀ r, r < L.length → M.e r col = torCoeff pre i t (L.getD r [])) →
      ∃ M', matrixNDCol post (buildDict L) t i col M = .ok M' ∧ M'.rows = M.rows ∧ M'.cols = M.cols ∧
      (∀ r c, c ≠ col → M'.e r c = M.e r c) ∧
      ∀ r, r < L.length → M'.e r col = torCoeff f i t (L.getD r []) from
    H [] f rfl M hr hc (fun r _ => by rw [h0]; simp [torCoeff])
  intro pre post
  induction post generalizing pre with
  | nil =>
    intro hp M h1 h2 h3
    rw [List.append_nil] at hp
    exact ⟨M, rfl, rfl, rfl, fun _ _ _ => rfl, by rw [hp]; exact h3⟩
  | cons e post ih =>
    intro hp M h1 h2 h3
    have hmem : e ∈ f := by rw [hp]; simp
    have he := hf.1 e hmem
    have hp' : f = (pre ++ [e]) ++ post := by rw [hp]; simp
    unfold matrixNDCol
    rw [List.foldlM_cons]
    have hlen : e.1.length = t.length := by rw [he.1, ht.1]
    have htup : IsTuple (n + 1) l (List.zipWith (· + ·) e.1 t) := by
      refine tuple_of_ev (by simp [he.1, ht.1]) ?_ ?_
      · intro j; exact nonNeg_getD (nonNeg_add he.2 ht.2.1) j
      · rw [ev_add hlen, Finset.sum_congr rfl (fun j _ => Pi.add_apply _ _ j),
          Finset.sum_add_distrib, sum_ev_tuple ht, sum_ev he.1]
        have := hh e hmem
        rw [deg] at this
        rw [this]; omega
    obtain ⟨row, hrow, hrt, hlook⟩ := hL.exists_index htup
    have hstep : (do
        let mon ← addVec e.1 t
        let row ← look (buildDict L) mon
        M.put row col ((e.1.getD i 0 : Int) * e.2)) = .ok ⟨M.rows, M.cols, fun a b =>
          if a = row ∧ b = col then ((e.1.getD i 0 : Int) : R) * e.2 else M.e a b⟩ := by
      rw [addVec_ok hlen, Res.bind_ok, hlook, Res.bind_ok, put_ok (show row < M.rows by omega) h2]
    rw [hstep, Res.bind_ok]
    obtain ⟨M', e1, e2, e3, e4, e5⟩ := ih (pre ++ [e]) hp'
      ⟨M.rows, M.cols, fun a b => if a = row ∧ b = col then
          ((e.1.getD i 0 : Int) : R) * e.2 else M.e a b⟩ h1 h2 (by
      intro r hr
      rw [torCoeff_append]
      simp only [and_true]
      by_cases hrr : r = row
      · subst hrr
        rw [if_pos rfl, if_pos hrt.symm]
        have : torCoeff pre i t (L.getD r []) = 0 := by
          apply List.sum_eq_zero
          intro x hx
          rw [List.mem_map] at hx
          obtain ⟨e', he', rfl⟩ := hx
          have hm' : e' ∈ f := by rw [hp]; simp [he']
          have hl' := (hf.1 e' hm').1
          rw [if_neg]
          intro h'
          rw [hrt] at h'
          have h3 := zipWith_add_cancel (by rw [hl', ht.1]) hlen h'
          have hnd := LexLt_pairwise_nodup hf.2
          rw [hp, List.map_append, List.map_cons, List.nodup_append] at hnd
          exact hnd.2.2 _ (List.mem_map_of_mem he') _ (by simp) h3
        rw [this, zero_add]
      · rw [if_neg hrr, if_neg, add_zero, h3 r hr]
        intro h'
        rw [← hrt] at h'
        exact hrr (hL.getD_inj hr hrow h'.symm))
    refine ⟨M', e1, e2, e3, ?_, e5⟩
    intro r c hcc
    rw [e4 r c hcc]
    exact if_neg (fun h => hcc h.2)

theorem matrixND_small {D : DR R} (hD : DROk D) (l : Int) (h0 : 0 ≤ l) (h1 : l < (D.d : Int)) :
    ∃ L, IsTable D.n l L ∧ D.list l = .ok L ∧
      matrixND D l = .ok (CMat.mk' L.length 0 (fun _ _ => 0)) := by
  have hd := hD.hd
  have : ((D.n : Int) + 1) * D.d ≥ D.d := by nlinarith
  obtain ⟨L, hL, e, -⟩ := D.list_ok hD l h0 (by omega)
  refine ⟨L, hL, e, ?_⟩
  rw [matrixND, if_pos h1, e]
  rfl

theorem matrixND_ok' {D : DR R} (hD : TabOK D) (l : Int) (h0 : (D.d : Int) ≤ l)
    (h1 : l ≤ (D.n + 1) * D.d) :
    ∃ L S T, IsTable D.n l L ∧ IsTable D.n (l - D.d) S ∧ D.list l = .ok L ∧
      D.list (l - D.d) = .ok S ∧ matrixND D l = .ok T ∧ T.rows = L.length ∧
      T.cols = (D.n + 1) * S.length ∧
      ∀ r i j, r < L.length → i < D.n + 1 → j < S.length →
        T.e r (i * S.length + j) = torCoeff D.f i (S.getD j []) (L.getD r []) := by
  obtain ⟨L, hL, e, ed⟩ := D.list_ok' hD l (by omega) h1
  obtain ⟨S, hS, e', -⟩ := D.list_ok' hD (l - D.d) (by omega) (by omega)
  have key : ∃ T, forRange (D.n + 1) (CMat.mk' L.length ((D.n + 1) * S.length) (fun _ _ => (0 : R)))
      (fun i M => forRange S.length M (fun j M =>
        matrixNDCol D.f (buildDict L) (S.getD j []) i (i * S.length + j) M)) = .ok T ∧
      (T.rows = L.length ∧ T.cols = (D.n + 1) * S.length ∧
      (∀ r c, (D.n + 1) * S.length ≤ c → T.e r c = 0) ∧
      ∀ r i j, r < L.length → i < D.n + 1 → j < S.length →
        i * S.length + j < (D.n + 1) * S.length →
        T.e r (i * S.length + j) = torCoeff D.f i (S.getD j []) (L.getD r [])) := by
    refine forRange_inv (fun i' (T : CMat R) => T.rows = L.length ∧ T.cols = (D.n + 1) * S.length ∧
      (∀ r c, i' * S.length ≤ c → T.e r c = 0) ∧
      ∀ r i j, r < L.length → i < D.n + 1 → j < S.length → i * S.length + j < i' * S.length →
        T.e r (i * S.length + j) = torCoeff D.f i (S.getD j []) (L.getD r [])) ?_ ?_
    · refine ⟨rfl, rfl, fun r c _ => ?_, fun r i j _ _ _ h => by omega⟩
      simp only [CMat.mk']
      split <;> rfl
    · rintro i' M hi' ⟨m1, m2, m3, m4⟩
      have := forRange_inv (n := S.length) (s := M) (f := fun j M =>
        matrixNDCol D.f (buildDict L) (S.getD j []) i' (i' * S.length + j) M)
        (fun j' (T : CMat R) => T.rows = L.length ∧ T.cols = (D.n + 1) * S.length ∧
        (∀ r c, i' * S.length + j' ≤ c → T.e r c = 0) ∧
        ∀ r i j, r < L.length → i < D.n + 1 → j < S.length →
          i * S.length + j < i' * S.length + j' →
          T.e r (i * S.length + j) = torCoeff D.f i (S.getD j []) (L.getD r []))
        ⟨m1, m2, m3, m4⟩ ?_
      · simpa only [Nat.succ_mul] using this
      · rintro j' M hj' ⟨m1, m2, m3, m4⟩
        have hcol := rowMajor_lt hi' hj'
        obtain ⟨M', a1, a2, a3, a4, a5⟩ := matrixNDCol_ok D.f hD.f_wf hD.f_hom hL
          (hS.tuple hj') i' (i' * S.length + j') M m1 (by rw [m2]; exact hcol)
          (fun r => m3 r _ (le_refl _))
        refine ⟨M', a1, by omega, by omega, ?_, ?_⟩
        · intro r c hc
          rw [a4 r c (by omega), m3 r c (by omega)]
        · intro r i j hr hi hj hlt
          by_cases hcc : i * S.length + j = i' * S.length + j'
          · obtain ⟨rfl, rfl⟩ := rowMajor_inj hj hj' hcc
            exact a5 r hr
          · rw [a4 r _ hcc, m4 r i j hr hi hj (by omega)]
  obtain ⟨T, eT, t1, t2, -, t3⟩ := key
  refine ⟨L, S, T, hL, hS, e, e', ?_, t1, t2, fun r i j hr hi hj => t3 r i j hr hi hj
    (rowMajor_lt hi hj)⟩
  rw [matrixND, if_neg (by omega), e, e', ed]
  exact eT

theorem matrixND_ok {D : DR R} (hD : DROk D) (l : Int) (h0 : (D.d : Int) ≤ l)
    (h1 : l ≤ (D.n + 1) * D.d) :
    ∃ L S T, IsTable D.n l L ∧ IsTable D.n (l - D.d) S ∧ D.list l = .ok L ∧
      D.list (l - D.d) = .ok S ∧ matrixND D l = .ok T ∧ T.rows = L.length ∧
      T.cols = (D.n + 1) * S.length ∧
      ∀ r i j, r < L.length → i < D.n + 1 → j < S.length →
        T.e r (i * S.length + j) = torCoeff D.f i (S.getD j []) (L.getD r []) :=
  matrixND_ok' hD.toTabOK l h0 h1

theorem xd_isHomogeneous {D : DR R} (hD : DROk D) (i : Fin (D.n + 1)) :
    (xd i (DRpoly D)).IsHomogeneous D.d := by
  have hd := hD.hd
  have := (isHomogeneous_X R i).mul ((DRpoly_isHomogeneous hD).pderiv (i := i))
  rwa [show 1 + (D.d - 1) = D.d by omega] at this

/-- The pair returned by `get_solve_ND(l)` decomposes every monomial of degree `l`. -/
theorem solveND_ok {solve : Solver R} (hsolve : SolverOK solve) {D : DR R} (hD : DROk D) (l : Int)
    (h0 : (D.d : Int) ≤ l) (h1 : l ≤ (D.n + 1) * D.d) :
    ∃ L S B U, IsTable D.n l L ∧ IsTable D.n (l - D.d) S ∧ D.list l = .ok L ∧
      D.list (l - D.d) = .ok S ∧ solveND solve D l = .ok (B, U) ∧
      U.rows = (D.n + 1) * S.length + B.length ∧ U.cols = L.length ∧ B.Pairwise (· < ·) ∧
      (∀ b ∈ B, b < L.length) ∧
      ∀ k, k < L.length → xpow R (ev D.n (L.getD k []))
        = ∑ i : Fin (D.n + 1), combo D.n S (fun s => U.e (i.val * S.length + s) k)
              * xd i (DRpoly D)
          + ∑ b ∈ Finset.range B.length, U.e ((D.n + 1) * S.length + b) k •
              xpow R (ev D.n (L.getD (B.getD b 0) [])) := by
  have hd := hD.hd
  obtain ⟨L, S, T, hL, hS, eL, eS, eT, hTr, hTc, hT⟩ := matrixND_ok hD l h0 h1
  obtain ⟨B, U, eU, hU⟩ := hsolve T
  have hl : ((l.toNat : Nat) : Int) = l := Int.toNat_of_nonneg (by omega)
  refine ⟨L, S, B, U, hL, hS, eL, eS, ?_, by rw [hU.rows, hTc], by rw [hU.cols, hTr], hU.sorted,
    by rw [← hTr]; exact hU.lt, ?_⟩
  · rw [solveND, eT]; exact eU
  · intro k hk
    refine solves_decomp (l := l.toNat) (by rw [hl]; exact hL) (fun i => xd i (DRpoly D)) hTr hTc
      ?_ ?_ hU hk
    · intro i j hj
      have h2 : l.toNat = (l - D.d).toNat + D.d := by omega
      rw [h2]
      refine IsHomogeneous.mul ?_ (xd_isHomogeneous hD i)
      apply xpow_isHomogeneous
      rw [sum_ev_tuple (hS.tuple hj), Int.toNat_of_nonneg (by omega)]
    · intro r i j hr hj
      rw [hT r i j hr i.isLt hj, DRpoly, coeff_tor D.f hD.f_wf.1 i (hS.tuple hj).1 (hS.tuple hj).2.1
        (hL.tuple hr).1 (hL.tuple hr).2.1]

theorem solveND_shape {solve : Solver R} (hsolve : SolverOK solve) {D : DR R} (hD : DROk D) (l : Int)
    (h0 : 0 ≤ l) (h1 : l ≤ (D.n + 1) * D.d) :
    ∃ L B U, IsTable D.n l L ∧ D.list l = .ok L ∧ solveND solve D l = .ok (B, U) ∧
      B.Pairwise (· < ·) ∧ ∀ b ∈ B, b < L.length := by
  by_cases hl : l < (D.d : Int)
  · obtain ⟨L, hL, eL, eM⟩ := matrixND_small hD l h0 hl
    obtain ⟨B, U, eU, hU⟩ := hsolve (CMat.mk' L.length 0 (fun _ _ => 0))
    exact ⟨L, B, U, hL, eL, by rw [solveND, eM]; exact eU, hU.sorted, hU.lt⟩
  · obtain ⟨L, S, B, U, hL, -, eL, -, e, -, -, hs, hlt, -⟩ := solveND_ok hsolve hD l (by omega) h1
    exact ⟨L, B, U, hL, eL, e, hs, hlt⟩

end Verif
