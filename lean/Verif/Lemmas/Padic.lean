import Verif.Lemmas.SolveSystem3
import Mathlib.Data.ZMod.Basic
import Mathlib.Algebra.Field.ZMod
import Mathlib.Tactic.NoncommRing

namespace Verif

open Spec Finset

theorem toMat_map {R S : Type} [Zero S] (f : R → S) (A : CMat R) :
    toMat (A.map f) A.rows A.cols = (toMat A A.rows A.cols).map f := by
  ext i j
  simp [toMat, CMat.map, CMat.mk']

theorem toMat_newtonStep {R : Type} [CommRing R] (X U : CMat R) (m k : Nat) (h1 : X.rows = m)
    (h2 : X.cols = k) (h3 : U.rows = k) (h4 : U.cols = m) :
    (newtonStep X U).rows = k ∧ (newtonStep X U).cols = m ∧
    toMat (newtonStep X U) k m
      = (2 : R) • toMat U k m - toMat U k m * (toMat X m k * toMat U k m) := by
  subst h1 h2
  refine ⟨h3, h4, ?_⟩
  ext i j
  rw [Matrix.sub_apply, Matrix.smul_apply, Matrix.mul_apply]
  have hi : i.val < U.rows := by rw [h3]; exact i.isLt
  have hj : j.val < U.cols := by rw [h4]; exact j.isLt
  simp only [toMat, newtonStep, CMat.mk', h4, hi, j.isLt, and_self, if_true, smul_eq_mul]
  congr 1
  rw [sumLoop_eq_sum_fin]
  refine Finset.sum_congr rfl (fun l _ => ?_)
  rw [if_pos ⟨l.isLt, trivial⟩, Matrix.mul_apply, sumLoop_eq_sum_fin]
  rfl

/-- The Newton step doubles the precision. -/
theorem newton_double {R : Type} [CommRing R] {m k : Nat} (X : Matrix (Fin m) (Fin k) R)
    (U : Matrix (Fin k) (Fin m) R) (q : R) (E : Matrix (Fin m) (Fin m) R) (h : X * U = 1 + q • E) :
    X * ((2 : R) • U - U * (X * U)) = 1 + (q * q) • (-(E * E)) := by
  rw [Matrix.mul_sub, Matrix.mul_smul, ← Matrix.mul_assoc, h]
  rw [Matrix.add_mul, Matrix.mul_add, Matrix.mul_add, Matrix.one_mul, Matrix.one_mul, Matrix.mul_one,
    Matrix.smul_mul, Matrix.mul_smul, smul_smul, smul_add, smul_neg, two_smul, two_smul]
  abel

theorem newtonLift_ok {R : Type} [CommRing R] (X : CMat R) (m k : Nat) (h1 : X.rows = m)
    (h2 : X.cols = k) (p : R) (precision : Nat) (fuel j : Nat) (hj : 0 < j) (hf : precision ≤ j + fuel)
    (U : CMat R) (h3 : U.rows = k) (h4 : U.cols = m)
    (hU : ∃ E, toMat X m k * toMat U k m = 1 + p ^ j • E) :
    (newtonLift X precision fuel j U).rows = k ∧ (newtonLift X precision fuel j U).cols = m ∧
    ∃ E, toMat X m k * toMat (newtonLift X precision fuel j U) k m = 1 + p ^ precision • E := by
  have weaken : ∀ (j : Nat) (U : CMat R), precision ≤ j →
      (∃ E, toMat X m k * toMat U k m = 1 + p ^ j • E) →
      ∃ E, toMat X m k * toMat U k m = 1 + p ^ precision • E := by
    rintro j U hj ⟨E, hE⟩
    refine ⟨p ^ (j - precision) • E, ?_⟩
    rw [hE, smul_smul, ← pow_add, show precision + (j - precision) = j by omega]
  induction fuel generalizing j U with
  | zero => exact ⟨h3, h4, weaken j U (by omega) hU⟩
  | succ fuel ih =>
    rw [newtonLift]
    split
    · obtain ⟨s1, s2, s3⟩ := toMat_newtonStep X U m k h1 h2 h3 h4
      refine ih (2 * j) (by omega) (by omega) _ s1 s2 ?_
      obtain ⟨E, hE⟩ := hU
      refine ⟨-(E * E), ?_⟩
      rw [s3, newton_double _ _ _ E hE, ← pow_add, two_mul]
    · exact ⟨h3, h4, weaken j U (by omega) hU⟩

theorem newtonLiftZ_ok (X : CMat Int) (m k : Nat) (h1 : X.rows = m)
    (h2 : X.cols = k) (p : Int) (precision : Nat) (fuel j : Nat) (hj : 0 < j)
    (hf : precision ≤ j + fuel)
    (U : CMat Int) (h3 : U.rows = k) (h4 : U.cols = m)
    (hU : ∃ E, toMat X m k * toMat U k m = 1 + p ^ j • E) (M : Int)
    (hM : j < precision → M = p ^ j) :
    (newtonLiftZ X precision fuel j M U).rows = k ∧ (newtonLiftZ X precision fuel j M U).cols = m ∧
    ∃ E, toMat X m k * toMat (newtonLiftZ X precision fuel j M U) k m = 1 + p ^ precision • E := by
  have weaken : ∀ (j : Nat) (U : CMat Int), precision ≤ j →
      (∃ E, toMat X m k * toMat U k m = 1 + p ^ j • E) →
      ∃ E, toMat X m k * toMat U k m = 1 + p ^ precision • E := by
    rintro j U hj ⟨E, hE⟩
    refine ⟨p ^ (j - precision) • E, ?_⟩
    rw [hE, smul_smul, ← pow_add, show precision + (j - precision) = j by omega]
  induction fuel generalizing j U M with
  | zero => exact ⟨h3, h4, weaken j U (by omega) hU⟩
  | succ fuel ih =>
    rw [newtonLiftZ]
    split
    · rename_i hlt
      obtain ⟨s1, s2, s3⟩ := toMat_newtonStep X U m k h1 h2 h3 h4
      have hstep : ∃ E, toMat X m k * toMat (newtonStep X U) k m = 1 + p ^ (2 * j) • E := by
        obtain ⟨E, hE⟩ := hU
        refine ⟨-(E * E), ?_⟩
        rw [s3, newton_double _ _ _ E hE, ← pow_add, two_mul]
      have hMM : M * M = p ^ (2 * j) := by rw [hM hlt, ← pow_add, two_mul]
      simp only
      split
      · rename_i hlt2
        refine ih (2 * j) (by omega) (by omega) _ (by exact s1) (by exact s2) ?_ _ (fun _ => hMM)
        obtain ⟨E, hE⟩ := hstep
        set D : Matrix (Fin k) (Fin m) ℤ := fun i l => (newtonStep X U).e i l / (M * M) with hD
        have hred : toMat (CMat.mk' (newtonStep X U).rows (newtonStep X U).cols
            (fun l k => (newtonStep X U).e l k % (M * M))) k m
            = toMat (newtonStep X U) k m - p ^ (2 * j) • D := by
          ext i l
          rw [Matrix.sub_apply, Matrix.smul_apply, hD, ← hMM]
          simp only [toMat, CMat.mk', s1, s2, Fin.is_lt, and_self, if_true, smul_eq_mul]
          rw [Int.emod_def]
        refine ⟨E - toMat X m k * D, ?_⟩
        rw [hred, Matrix.mul_sub, hE, Matrix.mul_smul, smul_sub]
        abel
      · rename_i hlt2
        exact ih (2 * j) (by omega) (by omega) _ s1 s2 hstep _ (fun h => absurd h hlt2)
    · exact ⟨h3, h4, weaken j U (by omega) hU⟩

theorem toMat_augmentC {R : Type} [CommRing R] (T : CMat R) (B : List Nat) :
    toMat (augmentC T B) T.rows (T.cols + B.length) = augment (toMat T T.rows T.cols) B := by
  ext i j
  simp only [toMat, augmentC, CMat.mk', augment, Fin.is_lt, and_self, if_true]
  by_cases h : j.val < T.cols
  · rw [if_pos h, dif_pos h]
  · rw [if_neg h, dif_neg h]

theorem augment_map {R S : Type} [CommRing R] [CommRing S] (f : R →+* S) {m n : Nat}
    (T : Matrix (Fin m) (Fin n) R) (B : List Nat) :
    (augment T B).map f = augment (T.map f) B := by
  ext i j
  simp only [augment, Matrix.map_apply]
  split
  · rfl
  · split <;> simp

set_option maxHeartbeats 1000000 in
theorem solveSystemPadic_ok {p N : Nat} [Fact p.Prime] (la : LinAlg (ZMod p))
    (hla : LinAlgOK la) (flint : Bool) (T : CMat (ZMod (p ^ N))) (precision : Nat)
    (hprec : N ≤ precision) :
    ∃ B U, solveSystemPadic la flint T precision = .ok (B, U) ∧ Solves T B U ∧
      (0 < T.cols → ∃ UFp, solveSystemZZp la true (T.map (fun x => (x.val : ZMod p))) = .ok (B, UFp)) := by
  have : NeZero (p ^ N) := ⟨pow_ne_zero _ (Fact.out (p := p.Prime)).ne_zero⟩
  have : NeZero p := ⟨(Fact.out (p := p.Prime)).ne_zero⟩
  unfold solveSystemPadic
  by_cases hn : T.cols = 0
  · rw [if_pos hn]
    have hg : ∀ k, k < T.rows → (List.range T.rows).getD k 0 = k := by
      intro k hk
      rw [List.getD_eq_getElem?_getD, List.getElem?_range hk]; rfl
    refine ⟨_, _, rfl, ⟨List.pairwise_lt_range, fun b hb => List.mem_range.1 hb, ?_, rfl, ?_⟩, by omega⟩
    · simp [CMat.one, CMat.mk', hn]
    · ext a b
      rw [augment_mul_apply, hn, Finset.range_zero, Finset.sum_empty, zero_add, List.length_range,
        Matrix.one_apply, Finset.sum_eq_single a.val]
      · rw [hg a a.isLt, if_pos rfl]
        simp [CMat.one, CMat.mk', Fin.ext_iff]
      · intro k hk hne
        rw [hg k (Finset.mem_range.1 hk), if_neg (Ne.symm hne)]
      · intro hh; exact absurd (Finset.mem_range.2 a.isLt) hh
  · rw [if_neg hn]
    obtain ⟨B, UFp, e, hs, -, -, -⟩ := solveSystemZZp_ok la hla true (T.map (fun x => (x.val : ZMod p)))
    rw [e, Res.bind_ok]
    simp only
    obtain ⟨m, hm⟩ : ∃ m, m = T.rows := ⟨_, rfl⟩
    obtain ⟨k, hk⟩ : ∃ k, k = T.cols + B.length := ⟨_, rfl⟩
    have hUr : UFp.rows = k := by rw [hs.rows, hk]; rfl
    have hUc : UFp.cols = m := by rw [hs.cols, hm]; rfl
    -- the integer matrices
    set XZ : Matrix (Fin m) (Fin k) ℤ := toMat (augmentC (T.map (fun x => (x.val : Int))) B) m k with hXZ
    set UZ : Matrix (Fin k) (Fin m) ℤ := toMat (UFp.map (fun x => (x.val : Int))) k m with hUZ
    have hXZ' : XZ = (augment (toMat (T.map (fun x => (x.val : Int))) T.rows T.cols) B).submatrix
        (Fin.cast hm) (Fin.cast hk) := by
      subst hm hk
      rw [hXZ]
      have := toMat_augmentC (T.map (fun x => (x.val : Int))) B
      exact this
    have hXR : XZ.map (Int.castRingHom (ZMod (p ^ N)))
        = (augment (toMat T T.rows T.cols) B).submatrix (Fin.cast hm) (Fin.cast hk) := by
      rw [hXZ']
      ext i j
      have := congrFun (congrFun (augment_map (Int.castRingHom (ZMod (p ^ N)))
        (toMat (T.map (fun x => (x.val : Int))) T.rows T.cols) B) (Fin.cast hm i)) (Fin.cast hk j)
      simp only [Matrix.map_apply, Matrix.submatrix_apply] at this ⊢
      rw [this]
      congr 2
      ext a b
      simp [toMat, CMat.map, CMat.mk']
    have hbase : ∃ E, XZ * UZ = 1 + ((p : ℤ)) ^ 1 • E := by
      have h1 : (XZ * UZ).map (Int.castRingHom (ZMod p)) = 1 := by
        rw [Matrix.map_mul]
        have hX : XZ.map (Int.castRingHom (ZMod p))
            = (augment (toMat (T.map (fun x => (x.val : ZMod p))) T.rows T.cols) B).submatrix
              (Fin.cast hm) (Fin.cast hk) := by
          rw [hXZ']
          ext i j
          have := congrFun (congrFun (augment_map (Int.castRingHom (ZMod p))
            (toMat (T.map (fun x => (x.val : Int))) T.rows T.cols) B) (Fin.cast hm i)) (Fin.cast hk j)
          simp only [Matrix.map_apply, Matrix.submatrix_apply] at this ⊢
          rw [this]
          congr 2
          ext a b
          simp [toMat, CMat.map, CMat.mk']
        have hU : UZ.map (Int.castRingHom (ZMod p))
            = (toMat UFp (T.cols + B.length) T.rows).submatrix (Fin.cast hk) (Fin.cast hm) := by
          ext i j
          have hi : i.val < UFp.rows := by rw [hUr]; exact i.isLt
          have hj : j.val < UFp.cols := by rw [hUc]; exact j.isLt
          simp [hUZ, toMat, CMat.map, CMat.mk', hi, hj]
        rw [hX, hU]
        have := hs.eq
        subst hm hk
        exact this
      have h2 : ∀ i j, (p : ℤ) ∣ (XZ * UZ) i j - (1 : Matrix (Fin m) (Fin m) ℤ) i j := by
        intro i j
        rw [← ZMod.intCast_zmod_eq_zero_iff_dvd]
        have := congrFun (congrFun h1 i) j
        rw [Matrix.map_apply, Matrix.one_apply] at this
        rw [Matrix.one_apply]
        push_cast
        rw [show ((XZ * UZ) i j : ZMod p) = Int.castRingHom (ZMod p) ((XZ * UZ) i j) from rfl, this]
        split <;> simp
      choose E hE using h2
      refine ⟨Matrix.of E, ?_⟩
      ext i j
      rw [Matrix.add_apply, Matrix.smul_apply, pow_one, smul_eq_mul, Matrix.of_apply, ← hE i j]
      ring
    have hzero : ((p : ZMod (p ^ N))) ^ precision = 0 := by
      have : ((p ^ N : ℕ) : ZMod (p ^ N)) = 0 := ZMod.natCast_self _
      push_cast at this
      rw [show precision = N + (precision - N) by omega, pow_add, this, zero_mul]
    have fin : ∀ U : CMat (ZMod (p ^ N)), U.rows = k → U.cols = m →
        XZ.map (Int.castRingHom (ZMod (p ^ N))) * toMat U k m = 1 → Solves T B U := by
      intro U hr hc hmul
      refine ⟨hs.sorted, ?_, by rw [hr, hk], by rw [hc, hm], ?_⟩
      · intro b hb
        have := hs.lt b hb
        exact this
      · rw [hXR] at hmul
        subst hm hk
        exact hmul
    by_cases hf : (flint && decide (2 ^ 63 ≤ p ^ N)) = true
    · rw [if_pos hf]
      refine ⟨B, _, rfl, ?_, fun _ => ⟨UFp, rfl⟩⟩
      obtain ⟨r1, r2, E, r3⟩ := newtonLiftZ_ok (augmentC (T.map (fun x => (x.val : Int))) B) m k
        (by rw [hm]; rfl) (by rw [hk]; rfl) p precision precision 1 (by omega) (by omega)
        (UFp.map (fun x => (x.val : Int))) hUr hUc hbase p (fun _ => (pow_one _).symm)
      apply fin _ r1 r2
      have : toMat ((newtonLiftZ (augmentC (T.map fun x => (x.val : ℤ)) B) precision precision 1 (↑p)
          (UFp.map fun x => (x.val : ℤ))).map (fun x : Int => (x : ZMod (p ^ N)))) k m
          = (toMat (newtonLiftZ (augmentC (T.map fun x => (x.val : ℤ)) B) precision precision 1 (↑p)
          (UFp.map fun x => (x.val : ℤ))) k m).map (Int.castRingHom (ZMod (p ^ N))) := by
        ext i j
        have hi : i.val < (newtonLiftZ (augmentC (T.map fun x => (x.val : ℤ)) B) precision precision 1 (↑p)
          (UFp.map fun x => (x.val : ℤ))).rows := by rw [r1]; exact i.isLt
        have hj : j.val < (newtonLiftZ (augmentC (T.map fun x => (x.val : ℤ)) B) precision precision 1 (↑p)
          (UFp.map fun x => (x.val : ℤ))).cols := by rw [r2]; exact j.isLt
        exact if_pos ⟨hi, hj⟩
      rw [this, ← Matrix.map_mul, r3]
      ext i j
      rw [Matrix.map_apply, Matrix.add_apply, Matrix.smul_apply, map_add, smul_eq_mul, map_mul, map_pow]
      rw [show (Int.castRingHom (ZMod (p ^ N))) (p : ℤ) = ((p : ℕ) : ZMod (p ^ N)) by simp, hzero,
        zero_mul, add_zero, Matrix.one_apply, Matrix.one_apply]
      split <;> simp
    · rw [if_neg hf]
      refine ⟨B, _, rfl, ?_, fun _ => ⟨UFp, rfl⟩⟩
      have hXm : toMat (augmentC T B) m k = XZ.map (Int.castRingHom (ZMod (p ^ N))) := by
        rw [hXR]
        subst hm hk
        exact toMat_augmentC T B
      have hUm : toMat (UFp.map (fun x => ((x.val : Nat) : ZMod (p ^ N)))) k m
          = UZ.map (Int.castRingHom (ZMod (p ^ N))) := by
        ext i j
        have hi : i.val < UFp.rows := by rw [hUr]; exact i.isLt
        have hj : j.val < UFp.cols := by rw [hUc]; exact j.isLt
        simp [hUZ, toMat, CMat.map, CMat.mk', hi, hj]
      obtain ⟨r1, r2, E, r3⟩ := newtonLift_ok (augmentC T B) m k
        (by rw [hm]; rfl) (by rw [hk]; rfl) ((p : ℕ) : ZMod (p ^ N)) precision precision 1 (by omega)
        (by omega) (UFp.map (fun x => ((x.val : Nat) : ZMod (p ^ N)))) hUr hUc (by
          obtain ⟨E, hE⟩ := hbase
          refine ⟨E.map (Int.castRingHom (ZMod (p ^ N))), ?_⟩
          rw [hXm, hUm, ← Matrix.map_mul, hE]
          ext i j
          simp only [Matrix.map_apply, Matrix.add_apply, Matrix.smul_apply, smul_eq_mul, map_add, map_mul,
            map_pow]
          rw [Matrix.one_apply, Matrix.one_apply]
          split <;> simp)
      apply fin _ r1 r2
      rw [← hXm, r3, hzero, zero_smul, add_zero]

end Verif
