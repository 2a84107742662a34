import Mathlib.LinearAlgebra.Matrix.Charpoly.Eigs
import Mathlib.RingTheory.MvPolynomial.Symmetric.NewtonIdentities
import Mathlib.RingTheory.Polynomial.Vieta
import Mathlib.FieldTheory.IsAlgClosed.Basic
import Mathlib.Analysis.Complex.Polynomial.Basic
import Mathlib.Tactic.Ring
import Mathlib.Tactic.Linarith

/-!
Traces of powers of a matrix and Newton's identities, for the roots of a characteristic polynomial.
-/

namespace Verif

open Polynomial Matrix

theorem exists_fin_of_card {α : Type*} (s : Multiset α) (n : Nat) (h : Multiset.card s = n) :
    ∃ f : Fin n → α, s = Finset.univ.val.map f := by
  induction s using Quotient.inductionOn with
  | _ l =>
    have hl : l.length = n := by simpa using h
    subst hl
    refine ⟨l.get, ?_⟩
    have h2 : (Finset.univ.val : Multiset (Fin l.length)) = ↑(List.finRange l.length) := rfl
    rw [h2, Multiset.map_coe]
    show (l : Multiset α) = _
    rw [List.map_get_finRange]

theorem charpoly_eq_prod {n : Nat} (A : Matrix (Fin n) (Fin n) ℂ) :
    ∃ r : Fin n → ℂ, A.charpoly = ∏ i, (X - C (r i)) := by
  have hs : A.charpoly.Splits := IsAlgClosed.splits _
  have hc : Multiset.card A.charpoly.roots = n := by
    rw [splits_iff_card_roots.1 hs, charpoly_natDegree_eq_dim]; simp
  obtain ⟨r, hr⟩ := exists_fin_of_card _ _ hc
  refine ⟨r, ?_⟩
  conv_lhs => rw [hs.eq_prod_roots_of_monic A.charpoly_monic, hr]
  rw [Multiset.map_map]; rfl

theorem det_aeval {n : Nat} (A : Matrix (Fin n) (Fin n) ℂ) (r : Fin n → ℂ)
    (h : A.charpoly = ∏ i, (X - C (r i))) (q : ℂ[X]) :
    (aeval A q).det = ∏ i, q.eval (r i) := by
  let φ : ℂ[X] →* ℂ := Matrix.detMonoidHom.comp (aeval A : ℂ[X] →ₐ[ℂ] _).toRingHom.toMonoidHom
  let ψ : ℂ[X] →* ℂ :=
    { toFun := fun q => ∏ i, q.eval (r i)
      map_one' := by simp
      map_mul' := by intro a b; simp [Finset.prod_mul_distrib] }
  have hC : ∀ c : ℂ, φ (C c) = ψ (C c) := by
    intro c
    show (aeval A (C c)).det = ∏ i : Fin n, (C c).eval (r i)
    simp [algebraMap_eq_diagonal]
  have hX : ∀ c : ℂ, φ (X - C c) = ψ (X - C c) := by
    intro c
    show (aeval A (X - C c)).det = ∏ i, (X - C c).eval (r i)
    have h1 : (aeval A (X - C c) : Matrix (Fin n) (Fin n) ℂ) = -(scalar (Fin n) c - A) := by
      simp [algebraMap_eq_diagonal]
    rw [h1, det_neg, ← eval_charpoly, h]
    simp only [eval_prod, eval_sub, eval_X, eval_C, Fintype.card_fin]
    have : ∀ i : Fin n, r i - c = (-1) * (c - r i) := fun i => by ring
    simp_rw [this, Finset.prod_mul_distrib]
    simp
  have hs : q.Splits := IsAlgClosed.splits _
  show φ q = ψ q
  rw [hs.eq_prod_roots, map_mul, map_mul, hC, map_multiset_prod, map_multiset_prod,
    Multiset.map_map, Multiset.map_map]
  congr 2
  exact Multiset.map_congr rfl (fun c _ => hX c)

theorem charpoly_pow_eq_prod {n : Nat} (A : Matrix (Fin n) (Fin n) ℂ) (r : Fin n → ℂ)
    (h : A.charpoly = ∏ i, (X - C (r i))) (k : Nat) :
    (A ^ k).charpoly = ∏ i, (X - C (r i ^ k)) := by
  apply Polynomial.funext
  intro t
  have h1 := det_aeval A r h (C t - X ^ k)
  rw [eval_charpoly]
  have h2 : (aeval A (C t - X ^ k) : Matrix (Fin n) (Fin n) ℂ) = scalar (Fin n) t - A ^ k := by
    simp [algebraMap_eq_diagonal]
  rw [h2] at h1
  rw [h1]
  simp [eval_prod]

theorem trace_pow_eq_sum {n : Nat} (A : Matrix (Fin n) (Fin n) ℂ) (r : Fin n → ℂ)
    (h : A.charpoly = ∏ i, (X - C (r i))) (k : Nat) :
    (A ^ k).trace = ∑ i, r i ^ k := by
  rw [trace_eq_sum_roots_charpoly, charpoly_pow_eq_prod A r h k]
  have : (∏ i, (X - C (r i ^ k))) = ((Finset.univ.val.map (fun i => r i ^ k)).map (fun a => X - C a)).prod := by
    rw [Multiset.map_map]; rfl
  rw [this, roots_multiset_prod_X_sub_C]
  rfl

/-- The elementary symmetric function of the family `r`. -/
noncomputable def es {n : Nat} (r : Fin n → ℂ) (k : Nat) : ℂ :=
  MvPolynomial.aeval r (MvPolynomial.esymm (Fin n) ℂ k)

theorem es_zero {n : Nat} (r : Fin n → ℂ) : es r 0 = 1 := by simp [es]

theorem coeff_prod {n : Nat} (r : Fin n → ℂ) (k : Nat) (hk : k ≤ n) :
    (∏ i, (X - C (r i))).coeff (n - k) = (-1) ^ k * es r k := by
  have h1 : (∏ i, (X - C (r i))) = ((Finset.univ.val.map r).map (fun a => X - C a)).prod := by
    rw [Multiset.map_map]; rfl
  have hcard : Multiset.card (Finset.univ.val.map r) = n := by simp
  rw [h1, Multiset.prod_X_sub_C_coeff _ (by rw [hcard]; omega), hcard,
    show n - (n - k) = k by omega, es, MvPolynomial.aeval_esymm_eq_multiset_esymm]

theorem newton {n : Nat} (r : Fin n → ℂ) (k : Nat) :
    (k : ℂ) * es r k = ∑ i ∈ Finset.range k, (-1) ^ i * es r (k - (i + 1)) * ∑ j, r j ^ (i + 1) := by
  have h := congrArg (MvPolynomial.aeval r) (MvPolynomial.mul_esymm_eq_sum (Fin n) ℂ k)
  rw [map_mul, map_natCast, map_mul, map_sum] at h
  simp only [map_mul, map_pow, map_neg, map_one, MvPolynomial.psum, map_sum,
    MvPolynomial.aeval_X] at h
  show (k : ℂ) * es r k = _
  rw [es, h, Finset.mul_sum]
  have hset : (Finset.antidiagonal k).filter (fun a => a.1 < k)
      = (Finset.range k).image (fun i => (k - (i + 1), i + 1)) := by
    ext ⟨a, b⟩
    simp only [Finset.mem_filter, Finset.mem_antidiagonal, Finset.mem_image, Finset.mem_range,
      Prod.mk.injEq]
    constructor
    · rintro ⟨h1, h2⟩
      exact ⟨b - 1, by omega, by omega, by omega⟩
    · rintro ⟨i, h1, h2, h3⟩
      omega
  rw [hset, Finset.sum_image (by
    intro i _ j _ hij
    simp only [Prod.mk.injEq] at hij
    omega)]
  refine Finset.sum_congr rfl (fun i hi => ?_)
  have hi' := Finset.mem_range.1 hi
  simp only [es]
  have : ((-1 : ℂ)) ^ (k + 1) * (-1) ^ (k - (i + 1)) = (-1) ^ i := by
    rw [← pow_add]
    have : k + 1 + (k - (i + 1)) = 2 * (k - i) + i := by omega
    rw [this, pow_add, pow_mul]; simp
  rw [← this]; ring

end Verif
