import Verif.Model.Charpoly
import Verif.Lemmas.Matrix
import Verif.Lemmas.Newton

namespace Verif

open Polynomial Matrix

@[simp] theorem upd_self {α : Type} (f : Nat → α) (i : Nat) (x : α) : upd f i x i = x := by
  simp [upd]

theorem upd_ne {α : Type} (f : Nat → α) (i j : Nat) (x : α) (h : j ≠ i) : upd f i x j = f j := by
  simp [upd, h]

theorem CMat.mul_ofMatrix {R : Type} [CommRing R] {r m c : Nat} (A : Matrix (Fin r) (Fin m) R)
    (B : Matrix (Fin m) (Fin c) R) :
    CMat.mul (CMat.ofMatrix A) (CMat.ofMatrix B) = .ok (CMat.ofMatrix (A * B)) := by
  unfold CMat.mul
  rw [if_pos (show (CMat.ofMatrix A).cols = (CMat.ofMatrix B).rows from rfl)]
  congr 1
  refine CMat.mk'_eq_ofMatrix (r := r) (c := c) _ _ (fun i j => ?_)
  show sumLoop m _ = _
  rw [sumLoop_eq_sum_fin, Matrix.mul_apply]
  refine Finset.sum_congr rfl (fun k _ => ?_)
  rw [CMat.ofMatrix_e, CMat.ofMatrix_e]

theorem traceM_ofMatrix {R : Type} [CommRing R] {n : Nat} (A : Matrix (Fin n) (Fin n) R) :
    traceM (CMat.ofMatrix A) = .ok A.trace := by
  unfold traceM
  have h1 : (CMat.ofMatrix A).rows = (CMat.ofMatrix A).cols := rfl
  simp only [h1, decide_true, check_true, Res.bind_ok, Res.pure_eq]
  show Except.ok (sumLoop n _) = _
  rw [sumLoop_eq_sum_fin, Matrix.trace]
  congr 1
  refine Finset.sum_congr rfl (fun k _ => ?_)
  rw [CMat.ofMatrix_e]; rfl

theorem powerTraces_ok {n : Nat} (hn : 0 < n) (A : Matrix (Fin n) (Fin n) ℤ) :
    ∃ p, powerTraces (CMat.ofMatrix A) = .ok p ∧ ∀ k, 1 ≤ k → k ≤ n → p k = (A ^ k).trace := by
  unfold powerTraces
  rw [traceM_ofMatrix]
  simp only [Res.bind_ok]
  obtain ⟨s, h1, h2⟩ := forRange_inv (n := (CMat.ofMatrix A).rows - 1)
    (s := (CMat.ofMatrix A, upd (fun _ => 0) 1 A.trace))
    (f := fun i st => do
      let powerM ← CMat.mul st.1 (CMat.ofMatrix A)
      let t ← traceM powerM
      pure (powerM, upd st.2 (i + 2) t))
    (fun i st => st.1 = CMat.ofMatrix (A ^ (i + 1)) ∧
      ∀ k, 1 ≤ k → k ≤ i + 1 → st.2 k = (A ^ k).trace)
    ⟨by simp, by intro k h1 h2; have : k = 1 := by omega
                 subst this; simp⟩
    (by
      rintro i ⟨P, f⟩ hi ⟨rfl, hf⟩
      refine ⟨(CMat.ofMatrix (A ^ (i + 2)), upd f (i + 2) (A ^ (i + 2)).trace), ?_, rfl, ?_⟩
      · simp only [CMat.mul_ofMatrix, Res.bind_ok, traceM_ofMatrix, ← pow_succ, Res.pure_eq]
      · intro k h1 h2
        by_cases hk : k = i + 2
        · subst hk; simp
        · simp only [upd_ne _ _ _ _ hk]; exact hf k h1 (by omega))
  rw [h1]
  refine ⟨s.2, rfl, fun k hk1 hk2 => h2.2 k hk1 ?_⟩
  have : (CMat.ofMatrix A).rows = n := rfl
  omega

theorem alt_sum (g : Nat → Int) (k : Nat) :
    ∑ i ∈ Finset.range k, (-1) ^ i * g i
      = ∑ j ∈ Finset.range ((k + 1) / 2), g (2 * j) - ∑ j ∈ Finset.range (k / 2), g (2 * j + 1) := by
  induction k with
  | zero => simp
  | succ k ih =>
    rw [Finset.sum_range_succ, ih]
    rcases Nat.even_or_odd' k with ⟨m, rfl | rfl⟩
    · rw [show (2 * m + 1) / 2 = m by omega, show (2 * m) / 2 = m by omega,
        show (2 * m + 1 + 1) / 2 = m + 1 by omega, Finset.sum_range_succ, pow_mul]
      simp; ring
    · rw [show (2 * m + 1 + 1) / 2 = m + 1 by omega, show (2 * m + 1) / 2 = m by omega,
        show (2 * m + 1 + 1 + 1) / 2 = m + 1 by omega,
        Finset.sum_range_succ (fun j => g (2 * j + 1)), pow_succ, pow_mul]
      simp; ring

theorem newtonSum_eq (e p : Nat → Int) (k : Nat) :
    newtonSum e p k = ∑ i ∈ Finset.range k, (-1) ^ i * (e (k - (i + 1)) * p (i + 1)) := by
  rw [alt_sum (fun i => e (k - (i + 1)) * p (i + 1)), newtonSum, sumLoop_eq_sum, sumLoop_eq_sum]

/-- `(-1)^k` times the coefficient of `x^(n-k)`: the elementary symmetric functions of the roots. -/
noncomputable def ecoef (n : Nat) (P : ℤ[X]) (k : Nat) : ℤ := (-1) ^ k * P.coeff (n - k)

theorem ecoef_cast {n : Nat} (P : ℤ[X]) (r : Fin n → ℂ)
    (h : P.map (Int.castRingHom ℂ) = ∏ i, (X - C (r i))) (k : Nat) (hk : k ≤ n) :
    ((ecoef n P k : ℤ) : ℂ) = es r k := by
  have h1 := coeff_prod r k hk
  rw [← h, coeff_map] at h1
  simp only [eq_intCast] at h1
  rw [ecoef]; push_cast; rw [h1, ← mul_assoc, ← mul_pow]; simp

/-- Newton's identities for an integer matrix. -/
theorem newton_matrix {n : Nat} (A : Matrix (Fin n) (Fin n) ℤ) (k : Nat) (hk : k ≤ n) :
    (k : ℤ) * ecoef n A.charpoly k
      = ∑ i ∈ Finset.range k, (-1) ^ i * (ecoef n A.charpoly (k - (i + 1)) * (A ^ (i + 1)).trace) := by
  obtain ⟨r, hr⟩ := charpoly_eq_prod (A.map (Int.castRingHom ℂ))
  have hr' := hr
  rw [Matrix.charpoly_map] at hr
  have h := newton r k
  apply (Int.cast_injective (α := ℂ))
  push_cast
  rw [ecoef_cast _ r hr k hk, h]
  refine Finset.sum_congr rfl (fun i hi => ?_)
  have hi' := Finset.mem_range.1 hi
  rw [ecoef_cast _ r hr _ (by omega), ← trace_pow_eq_sum _ r hr']
  rw [← Matrix.map_pow]
  have : (((A ^ (i + 1)).trace : ℤ) : ℂ) = ((A ^ (i + 1)).map (Int.castRingHom ℂ)).trace := by
    simp [Matrix.trace]
  rw [this]; ring

theorem neg_one_pow_ite (k : Nat) (x : Int) : (if k % 2 = 0 then x else -x) = (-1) ^ k * x := by
  rcases Nat.even_or_odd' k with ⟨m, rfl | rfl⟩
  · simp [pow_mul]
  · rw [if_neg (by omega), pow_succ, pow_mul]; simp

theorem newtonLoop_ok {n : Nat} (A : Matrix (Fin n) (Fin n) ℤ) (p : Nat → Int)
    (hp : ∀ k, 1 ≤ k → k ≤ n → p k = (A ^ k).trace) :
    ∃ st, newtonLoop n p = .ok st ∧ ∀ k, k ≤ n → st.2 k = A.charpoly.coeff k := by
  have hlead : A.charpoly.coeff n = 1 := by
    have := A.charpoly_monic.coeff_natDegree
    rwa [charpoly_natDegree_eq_dim, Fintype.card_fin] at this
  unfold newtonLoop
  obtain ⟨s, h1, h2⟩ := forRange_inv (n := n)
    (s := (upd (fun _ => (0 : Int)) 0 1, upd (fun _ => (0 : Int)) n 1))
    (f := fun k' st => do
      let k := k' + 1
      let s := newtonSum st.1 p k
      check (decide (s % (k : Int) = 0))
      let ek := s / (k : Int)
      pure (upd st.1 k ek, upd st.2 (n - k) (if k % 2 = 0 then ek else -ek)))
    (fun i st => (∀ k, k ≤ i → st.1 k = ecoef n A.charpoly k) ∧
      ∀ k, k ≤ i → st.2 (n - k) = A.charpoly.coeff (n - k))
    (by
      refine ⟨fun k hk => ?_, fun k hk => ?_⟩
      · have : k = 0 := by omega
        subst this; simp [ecoef, hlead]
      · have : k = 0 := by omega
        subst this; simp [hlead])
    (by
      rintro k' ⟨e, res⟩ hk' ⟨he, hres⟩
      simp only at he hres
      have hs : newtonSum e p (k' + 1) = ((k' + 1 : ℕ) : ℤ) * ecoef n A.charpoly (k' + 1) := by
        rw [newtonSum_eq, newton_matrix A _ (by omega)]
        refine Finset.sum_congr rfl (fun i hi => ?_)
        have hi' := Finset.mem_range.1 hi
        rw [he _ (by omega), hp _ (by omega) (by omega)]
      have hdiv : ((k' + 1 : ℕ) : ℤ) * ecoef n A.charpoly (k' + 1) / ((k' + 1 : ℕ) : ℤ)
          = ecoef n A.charpoly (k' + 1) := Int.mul_ediv_cancel_left _ (by omega)
      refine ⟨_, by
        simp only [hs, Int.mul_emod_right, decide_true, check_true, Res.bind_ok, hdiv, Res.pure_eq]
        rfl, ?_, ?_⟩
      · intro k hk
        by_cases h : k = k' + 1
        · subst h; simp
        · simp only [upd_ne _ _ _ _ h]; exact he k (by omega)
      · intro k hk
        by_cases h : k = k' + 1
        · subst h
          simp only [upd_self]
          rw [neg_one_pow_ite, ecoef, ← mul_assoc, ← mul_pow]; simp
        · simp only
          rw [upd_ne _ _ _ _ (by omega)]; exact hres k (by omega))
  refine ⟨s, h1, fun k hk => ?_⟩
  have := h2.2 (n - k) (by omega)
  rwa [show n - (n - k) = k by omega] at this

theorem charpoly_ofMatrix {n : Nat} (hn : 0 < n) (A : Matrix (Fin n) (Fin n) ℤ) :
    charpoly (CMat.ofMatrix A) = .ok ((List.range (n + 1)).map A.charpoly.coeff) := by
  unfold charpoly
  have hr : (CMat.ofMatrix A).rows = n := rfl
  have hc : (CMat.ofMatrix A).cols = n := rfl
  rw [hr, hc]
  simp only [decide_true, check_true, Res.bind_ok]
  rw [if_neg (by omega)]
  obtain ⟨p, h1, h2⟩ := powerTraces_ok hn A
  obtain ⟨st, h3, h4⟩ := newtonLoop_ok A p h2
  rw [h1, Res.bind_ok, h3, Res.bind_ok, Res.pure_eq]
  congr 1
  apply List.map_congr_left
  intro k hk
  rw [List.mem_range] at hk
  exact h4 k (by omega)

end Verif
