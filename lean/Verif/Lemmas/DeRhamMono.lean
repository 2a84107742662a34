import Verif.Lemmas.DeRhamFinal
import Verif.Lemmas.Vec

/-!
The direction search, the inclusion matrix and `monomial_to_basis_J`.
-/

namespace Verif

open Spec MvPolynomial

variable {R : Type} [CommRing R]

/-! ### Directions -/

/-- `v` is a direction below `w`: `0 <= v <= w` and `v` is positive exactly where `w` is. -/
def Below (w v : IVec) : Prop := List.Forall₂ (fun x y => 0 ≤ y ∧ y ≤ x ∧ (0 < x ↔ 0 < y)) w v

theorem below_sum {w v : IVec} (h : Below w v) : v.sum ≤ w.sum := by
  induction h with
  | nil => simp
  | cons h _ ih => simp only [List.sum_cons]; omega

theorem bumpFirst_ok {w v : IVec} (h : Below w v) (hs : v.sum < w.sum) :
    ∃ v', bumpFirst w v = some v' ∧ Below w v' ∧ v'.sum = v.sum + 1 := by
  induction h with
  | nil => simp at hs
  | @cons x y w v hxy hwv ih =>
    rw [bumpFirst]
    by_cases hc : 0 < x ∧ y < x
    · rw [if_pos hc]
      refine ⟨_, rfl, List.Forall₂.cons ⟨by omega, by omega, by omega⟩ hwv, ?_⟩
      simp only [List.sum_cons]; omega
    · rw [if_neg hc]
      obtain ⟨v', e, h1, h2⟩ := ih (by simp only [List.sum_cons] at hs; omega)
      refine ⟨y :: v', by rw [e]; rfl, List.Forall₂.cons hxy h1, ?_⟩
      simp only [List.sum_cons, h2]; omega

theorem dirLoop_ok {w : IVec} (k : Nat) : ∀ {v : IVec}, Below w v → v.sum + k ≤ w.sum →
    ∃ v', dirLoop w k v = .ok v' ∧ Below w v' ∧ v'.sum = v.sum + k := by
  induction k with
  | zero => intro v h _; exact ⟨v, rfl, h, by simp⟩
  | succ k ih =>
    intro v h hs
    obtain ⟨v1, e1, h1, s1⟩ := bumpFirst_ok h (by push_cast at hs; omega)
    obtain ⟨v2, e2, h2, s2⟩ := ih h1 (by push_cast at hs; omega)
    refine ⟨v2, ?_, h2, by rw [s2, s1]; push_cast; ring⟩
    rw [dirLoop, e1]
    exact e2

/-- The number of positive entries. -/
def posCount (w : IVec) : Nat := (w.filter (fun x => decide (0 < x))).length

theorem posCount_le (w : IVec) : posCount w ≤ w.length := List.length_filter_le _ _

theorem below_init {w : IVec} (h : NonNeg w) :
    Below w (w.map (fun x => if 0 < x then (1 : Int) else 0)) ∧
      (w.map (fun x => if 0 < x then (1 : Int) else 0)).sum = posCount w := by
  induction w with
  | nil => exact ⟨List.Forall₂.nil, rfl⟩
  | cons x w ih =>
    obtain ⟨h1, h2⟩ := ih (fun y hy => h y (List.mem_cons_of_mem _ hy))
    have hx := h x (by simp)
    refine ⟨List.Forall₂.cons ?_ h1, ?_⟩
    · beta_reduce; split <;> omega
    · rw [List.map_cons, List.sum_cons, h2, posCount, posCount, List.filter_cons]
      by_cases hp : 0 < x
      · simp [hp]; ring
      · simp [hp]

theorem direction_ok {d : Nat} {w : IVec} (h : NonNeg w) (hp : posCount w ≤ d) (hs : (d : Int) ≤ w.sum) :
    ∃ v, direction d w = .ok v ∧ Below w v ∧ v.sum = d := by
  obtain ⟨h1, h2⟩ := below_init h
  have hk : (((d : Int) - posCount w).toNat : Int) = d - posCount w := Int.toNat_of_nonneg (by omega)
  obtain ⟨v, e, hv, hsum⟩ := dirLoop_ok ((d : Int) - posCount w).toNat h1 (by rw [h2, hk]; omega)
  refine ⟨v, ?_, hv, by rw [hsum, h2, hk]; ring⟩
  rw [direction, sumVec_eq_sum, h2]
  exact e

theorem Below.length {w v : IVec} (h : Below w v) : v.length = w.length := h.length_eq.symm

theorem Below.getD {w v : IVec} (h : Below w v) (i : Nat) :
    0 ≤ v.getD i 0 ∧ v.getD i 0 ≤ w.getD i 0 ∧ (0 < w.getD i 0 ↔ 0 < v.getD i 0) := by
  induction h generalizing i with
  | nil => simp
  | cons hxy _ ih =>
    cases i with
    | zero => simpa using hxy
    | succ i => simpa using ih i

theorem ev_sub {n : Nat} {a b : IVec} (h : a.length = b.length) :
    ev n (List.zipWith (· - ·) a b) = ev n a - ev n b := by
  funext i
  simp only [ev, Pi.sub_apply]
  by_cases hi : i.val < a.length
  · have hi2 : i.val < b.length := by omega
    have hi3 : i.val < (List.zipWith (· - ·) a b).length := by rw [List.length_zipWith]; omega
    rw [getD_getElem a _ _ hi, getD_getElem b _ _ hi2, getD_getElem _ _ _ hi3, List.getElem_zipWith]
  · have : ∀ l : IVec, l.length ≤ i.val → l.getD i.val 0 = 0 := fun l hl => by
      rw [List.getD_eq_getElem?_getD, List.getElem?_eq_none hl]; rfl
    rw [this a (by omega), this b (by omega), this _ (by rw [List.length_zipWith]; omega)]
    simp

theorem nonNeg_of_ev {n : Nat} {t : IVec} (hl : t.length = n + 1) (h : ∀ i, 0 ≤ ev n t i) : NonNeg t :=
  (tuple_of_ev hl h rfl).2.1

theorem subVec_ok {a b : IVec} (h : a.length = b.length) :
    subVec a b = .ok (List.zipWith (· - ·) a b) := by
  rw [subVec, decide_eq_true h]; rfl

/-- The step of the reduction loop: the direction exists, and what is left meets the precondition. -/
theorem direction_step {n d : Nat} {w : IVec} (hl : w.length = n + 1) (hw : NonNeg w) (hd : n < d)
    (hs : (d : Int) ≤ w.sum) :
    ∃ v w', direction d w = .ok v ∧ subVec w v = .ok w' ∧ IsTuple (n + 1) d v ∧
      w'.length = n + 1 ∧ NonNeg w' ∧ ev n w' = ev n w - ev n v ∧ w'.sum = w.sum - d ∧
      (∀ i, ev n w' i = 0 ∨ 0 < ev n v i) := by
  obtain ⟨v, e, hv, hsv⟩ := direction_ok (d := d) hw (by have := posCount_le w; omega) hs
  have hvl : v.length = n + 1 := by rw [hv.length, hl]
  have hevs : ev n (List.zipWith (· - ·) w v) = ev n w - ev n v := ev_sub (by omega)
  have hwl : (List.zipWith (· - ·) w v).length = n + 1 := by
    rw [List.length_zipWith, hl, hvl, min_self]
  refine ⟨v, _, e, subVec_ok (by omega), tuple_of_ev hvl (fun i => (hv.getD i).1) (by
    rw [sum_ev hvl, hsv]), hwl, ?_, hevs, ?_, ?_⟩
  · apply nonNeg_of_ev hwl
    intro i
    rw [hevs]
    have := (hv.getD i).2.1
    simp only [Pi.sub_apply, ev]
    omega
  · rw [← sum_ev hwl, hevs, Finset.sum_congr rfl (fun i _ => Pi.sub_apply _ _ i),
      Finset.sum_sub_distrib, sum_ev hl, sum_ev hvl, hsv]
  · intro i
    rw [hevs]
    have := hv.getD i
    simp only [Pi.sub_apply, ev]
    omega

/-! ### Vectors of forms -/

theorem family_congr {n : Nat} {L : List IVec} {u : Fin (n + 1) → ℤ} {G G' : Nat → R}
    (h : ∀ k, k < L.length → G k = G' k) : family n L u G = family n L u G' :=
  Finset.sum_congr rfl (fun k hk => by rw [h k (Finset.mem_range.1 hk)])

theorem mulVec_ok (M : CMat R) (G : CVec R) (h : M.cols = G.len) :
    ∃ H, M.mulVec G = .ok H ∧ H.len = M.rows ∧
      ∀ r, r < M.rows → H.e r = ∑ k ∈ Finset.range M.cols, M.e r k * G.e k := by
  refine ⟨_, by rw [CMat.mulVec, if_pos h], rfl, fun r hr => ?_⟩
  simp only [CVec.mk', if_pos hr, sumLoop_eq_sum]

/-- Applying a matrix whose columns satisfy relations. -/
theorem apply_rel {n : Nat} (E : Submodule R (MvPolynomial (Fin (n + 1)) R)) (a b : Nat)
    (X Y : Nat → MvPolynomial (Fin (n + 1)) R) (M : Nat → Nat → R)
    (h : ∀ k, k < a → X k - ∑ r ∈ Finset.range b, M r k • Y r ∈ E) (G : Nat → R) :
    ∑ k ∈ Finset.range a, G k • X k
      - ∑ r ∈ Finset.range b, (∑ k ∈ Finset.range a, M r k * G k) • Y r ∈ E := by
  have e : ∑ r ∈ Finset.range b, (∑ k ∈ Finset.range a, M r k * G k) • Y r
      = ∑ k ∈ Finset.range a, G k • ∑ r ∈ Finset.range b, M r k • Y r := by
    simp only [Finset.sum_smul, Finset.smul_sum, smul_smul]
    rw [Finset.sum_comm]
    refine Finset.sum_congr rfl (fun k _ => Finset.sum_congr rfl (fun r _ => ?_))
    rw [mul_comm]
  rw [e, ← Finset.sum_sub_distrib]
  refine Submodule.sum_mem _ (fun k hk => ?_)
  rw [← smul_sub]
  exact Submodule.smul_mem _ _ (h k (Finset.mem_range.1 hk))

/-- One reduction step on vectors. -/
theorem reduce_family {solve : Solver R} (hsolve : SolverOK solve) {D : DR R} (hD : DROk D)
    (htop : TopOK solve D) {u v : IVec} (hu : u.length = D.n + 1) (hu0 : NonNeg u)
    (hv : IsTuple (D.n + 1) D.d v) (huv : ∀ i, ev D.n u i = 0 ∨ 0 < ev D.n v i) {listG : List IVec}
    (eG : D.list ((D.d : Int) * D.n - D.n) = .ok listG) (m : Nat) (hm : 1 ≤ m)
    (hdeg : u.sum + D.d * D.n - D.n = m * D.d) (G : CVec R) (hG : G.len = listG.length) :
    ∃ M H, getReductionMatrixJ solve D u v = .ok M ∧ M.mulVec G = .ok H ∧ H.len = listG.length ∧
      family D.n listG (ev D.n u + ev D.n v) G.e - family D.n listG (ev D.n u) H.e
        ∈ Ex (DRpoly D) D.d ∧
      (∀ r, r < listG.length → ¬ Admissible D.n listG (ev D.n u) r → H.e r = 0) := by
  obtain ⟨L, M, eL, hL, eM, hr, hc, hrel, hadm⟩ := getReductionMatrixJ_ok hsolve hD htop hu hu0 hv huv
  rw [eG] at eL
  cases eL
  obtain ⟨H, eH, hHl, hH⟩ := mulVec_ok M G (by omega)
  refine ⟨M, H, eM, eH, by omega, ?_, ?_⟩
  · have := apply_rel (Ex (DRpoly D) D.d) listG.length listG.length _ _ _ (hrel m hm hdeg) G.e
    have e2 : family D.n listG (ev D.n u) H.e = family D.n listG (ev D.n u)
        (fun r => ∑ k ∈ Finset.range listG.length, M.e r k * G.e k) :=
      family_congr (fun r hr' => by rw [hH r (by omega), hc])
    rw [e2]
    exact this
  · intro r hrr hna
    rw [hH r (by omega)]
    refine Finset.sum_eq_zero (fun k hk => ?_)
    rw [hadm r k hrr (by have := Finset.mem_range.1 hk; omega) hna, zero_mul]

/-! ### The inclusion matrix -/

theorem setAll_length_of_nodup (l : List (IVec × Nat)) :
    ∀ (m : MonMap Nat), (l.map Prod.fst).Nodup → (∀ e ∈ l, e.1 ∉ MonMap.keys m) →
      (MonMap.setAll m l).length = m.length + l.length := by
  have hset : ∀ (m : MonMap Nat) (k : IVec) (v : Nat), k ∉ MonMap.keys m →
      (MonMap.set m k v).length = m.length + 1 := by
    intro m k v
    induction m with
    | nil => intro _; rfl
    | cons e m ih =>
      obtain ⟨k', v'⟩ := e
      intro h
      have h1 : k ≠ k' := fun he => h (by simp [MonMap.keys, he])
      have h2 : k ∉ MonMap.keys m := fun hm => h (by simp [MonMap.keys] at hm ⊢; tauto)
      rw [MonMap.set, if_neg h1]
      split
      · rfl
      · rw [List.length_cons, ih h2, List.length_cons]
  induction l with
  | nil => intro m _ _; rfl
  | cons e l ih =>
    intro m hnd hd
    rw [List.map_cons, List.nodup_cons] at hnd
    rw [MonMap.setAll_cons, ih _ hnd.2, hset _ _ _ (hd e (by simp)), List.length_cons]
    · omega
    · intro e' he' hk
      rw [MonMap.mem_keys_set] at hk
      rcases hk with hk | hk
      · exact hnd.1 (hk ▸ List.mem_map_of_mem he')
      · exact hd e' (by simp [he']) hk

theorem buildDict_length {l : List IVec} (h : l.Nodup) : (buildDict l).length = l.length := by
  rw [buildDict, setAll_length_of_nodup]
  · simp
  · rw [List.zipIdx_map_fst]; exact h
  · intro e _ h; simp [MonMap.keys] at h

theorem inclMatJ_ok {D : DR R} (hD : DROk D) (hn : 1 ≤ D.n) {u : IVec} (hu : u.length = D.n + 1)
    (hs : u.sum = D.n) :
    ∃ listG listH M, D.list ((D.d : Int) * D.n - D.n) = .ok listG ∧
      D.list ((D.d : Int) * D.n - D.n - 1) = .ok listH ∧
      IsTable D.n ((D.d : Int) * D.n - D.n) listG ∧
      IsTable D.n ((D.d : Int) * D.n - D.n - 1) listH ∧
      inclMatJ D u = .ok M ∧ M.rows = listH.length ∧ M.cols = listG.length ∧
      ∀ k, k < listG.length →
        ∑ r ∈ Finset.range listH.length, M.e r k • xpow R (ev D.n (listH.getD r []))
          = xpow R (fun i => ev D.n u i + ev D.n (listG.getD k []) i - 1) := by
  have hd := hD.hd
  have hdn : (D.n : Int) * D.d ≥ D.n * (D.n + 1) := by nlinarith
  have hnn : (D.n : Int) * (D.n + 1) ≥ D.n + D.n := by nlinarith
  obtain ⟨listG, hG, eG, -⟩ := D.list_ok hD ((D.d : Int) * D.n - D.n) (by nlinarith) (by nlinarith)
  obtain ⟨listH, hH, eH, eH'⟩ := D.list_ok hD ((D.d : Int) * D.n - D.n - 1) (by nlinarith)
    (by nlinarith)
  have hlen : (buildDict listH).length = listH.length := buildDict_length hH.nodup
  obtain ⟨M, eM, h1, h2, -, h4⟩ := forRange_inv (n := listG.length)
    (s := CMat.mk' (buildDict listH).length listG.length (fun _ _ => (0 : R)))
    (f := fun k M => do
      let w ← addVec (listG.getD k []) u
      match decAll w with
      | none => .ok M
      | some w => do
          let row ← look (buildDict listH) w
          M.put row k 1)
    (fun i M => M.rows = listH.length ∧ M.cols = listG.length ∧ (∀ r c, i ≤ c → M.e r c = 0) ∧
      ∀ k, k < i → ∑ r ∈ Finset.range listH.length, M.e r k • xpow R (ev D.n (listH.getD r []))
          = xpow R (fun i => ev D.n u i + ev D.n (listG.getD k []) i - 1))
    (by
      refine ⟨hlen, rfl, fun r c _ => ?_, fun k hk => by omega⟩
      simp only [CMat.mk']; split <;> rfl)
    (by
      rintro k M hk ⟨m1, m2, m3, m4⟩
      have ht := hG.tuple hk
      have hl : (listG.getD k []).length = u.length := by rw [ht.1, hu]
      have hadd : addVec (listG.getD k []) u = .ok (List.zipWith (· + ·) (listG.getD k []) u) := by
        rw [addVec, decide_eq_true hl]; rfl
      have hwl : (List.zipWith (· + ·) (listG.getD k []) u).length = D.n + 1 := by
        rw [List.length_zipWith, ht.1, hu, min_self]
      have hkeep : ∀ (M' : CMat R), (∀ r c, c ≠ k → M'.e r c = M.e r c) → ∀ k', k' < k →
          ∑ r ∈ Finset.range listH.length, M'.e r k' • xpow R (ev D.n (listH.getD r []))
          = xpow R (fun i => ev D.n u i + ev D.n (listG.getD k' []) i - 1) := by
        intro M' h k' hk'
        rw [← m4 k' hk']
        exact Finset.sum_congr rfl (fun r _ => by rw [h r k' (by omega)])
      by_cases hpos : ∀ i, 1 ≤ ev D.n (listG.getD k []) i + ev D.n u i
      · obtain ⟨w, hdec, hw1, hw2⟩ := decAll_some (n := D.n) hwl (by rw [ev_add hl]; exact hpos)
        simp only [ev_add hl, Pi.add_apply] at hw2
        have hwt : IsTuple (D.n + 1) ((D.d : Int) * D.n - D.n - 1) w := by
          refine tuple_of_ev hw1 (fun i => ?_) ?_
          · rw [hw2]; have := hpos i; omega
          · rw [Finset.sum_congr rfl (fun i _ => hw2 i), Finset.sum_sub_distrib,
              Finset.sum_add_distrib, sum_ev_tuple ht, sum_ev hu, hs]
            simp; ring
        obtain ⟨i1, i2, i3⟩ := hH.idx hwt
        simp only [hadd, Res.bind_ok, hdec, i3]
        rw [put_ok (by omega) (by omega)]
        refine ⟨_, rfl, m1, m2, fun r c hc => ?_, fun k' hk' => ?_⟩
        · simp only
          rw [if_neg (by omega), m3 r c (by omega)]
        · by_cases hkk : k' = k
          · subst hkk
            rw [Finset.sum_eq_single (listH.idxOf w)]
            · simp only [and_self, if_true, one_smul, i2]
              congr 1
              funext i
              rw [hw2]; ring
            · intro r _ hne
              simp only [and_true]
              rw [if_neg hne, m3 r k' (le_refl _), zero_smul]
            · intro h; exact absurd (Finset.mem_range.2 i1) h
          · exact hkeep _ (fun r c hc => by simp only; rw [if_neg (fun h => hc h.2)]) k' (by omega)
      · push Not at hpos
        obtain ⟨i, hi⟩ := hpos
        have hdec := decAll_none (n := D.n) hwl i (by rw [ev_add hl, Pi.add_apply]; omega)
        simp only [hadd, Res.bind_ok, hdec]
        refine ⟨M, rfl, m1, m2, fun r c hc => m3 r c (by omega), fun k' hk' => ?_⟩
        by_cases hkk : k' = k
        · subst hkk
          rw [xpow_of_neg i (by omega)]
          exact Finset.sum_eq_zero (fun r _ => by rw [m3 r k' (le_refl _), zero_smul])
        · exact hkeep M (fun _ _ _ => rfl) k' (by omega))
  refine ⟨listG, listH, M, eG, eH, hG, hH, ?_, h1, h2, h4⟩
  rw [inclMatJ, sumVec_eq_sum, decide_eq_true hs, check_true, Res.bind_ok, eG, Res.bind_ok, eH',
    Res.bind_ok]
  exact eM

/-! ### monomial_to_basis_J -/

theorem mtbLoop_ok {solve : Solver R} (hsolve : SolverOK solve) {D : DR R} (hD : DROk D)
    (htop : TopOK solve D) (hn : 1 ≤ D.n) {listG : List IVec}
    (eG : D.list ((D.d : Int) * D.n - D.n) = .ok listG) (cnt : Nat) :
    ∀ (w : IVec) (G : CVec R), w.length = D.n + 1 → NonNeg w → w.sum = cnt * D.d + D.n →
      G.len = listG.length →
      ∃ w' G', mtbLoop solve D cnt w G = .ok (w', G') ∧ w'.length = D.n + 1 ∧ NonNeg w' ∧
        w'.sum = D.n ∧ G'.len = listG.length ∧
        family D.n listG (ev D.n w) G.e - family D.n listG (ev D.n w') G'.e ∈ Ex (DRpoly D) D.d := by
  induction cnt with
  | zero =>
    intro w G h1 h2 h3 h4
    refine ⟨w, G, rfl, h1, h2, by rw [h3]; simp, h4, ?_⟩
    rw [sub_self]; exact Submodule.zero_mem _
  | succ cnt ih =>
    intro w G h1 h2 h3 h4
    have hcd : (0 : Int) ≤ cnt * D.d := by positivity
    have h3' : w.sum = (cnt : Int) * D.d + D.d + D.n := by rw [h3]; push_cast; ring
    obtain ⟨v, w1, e1, e2, hv, l1, n1, ev1, s1, c1⟩ := direction_step (n := D.n) (d := D.d) h1 h2 hD.hd
      (by omega)
    have hdeg : w1.sum + D.d * D.n - D.n = (cnt + D.n : Nat) * D.d := by
      rw [s1, h3']; push_cast; ring
    obtain ⟨M, H, eM, eH, hHl, hrel, -⟩ := reduce_family hsolve hD htop l1 n1 hv c1 eG (cnt + D.n)
      (by omega) hdeg G h4
    obtain ⟨w', G', e3, a1, a2, a3, a4, a5⟩ := ih w1 H l1 n1 (by rw [s1, h3']; ring) hHl
    refine ⟨w', G', ?_, a1, a2, a3, a4, ?_⟩
    · rw [mtbLoop, e1, Res.bind_ok, e2, Res.bind_ok, eM, Res.bind_ok, eH, Res.bind_ok, e3]
    · have : ev D.n w1 + ev D.n v = ev D.n w := by rw [ev1]; simp
      rw [this] at hrel
      have := Submodule.add_mem _ hrel a5
      rwa [sub_add_sub_cancel] at this

theorem family_unit {n : Nat} {L : List IVec} (u : Fin (n + 1) → ℤ) {k : Nat} (hk : k < L.length) :
    family n L u (CVec.unit (R := R) L.length k).e = xpow R (fun i => u i + ev n (L.getD k []) i - 1) := by
  rw [family, Finset.sum_eq_single k]
  · simp [CVec.unit, CVec.mk', hk]
  · intro j _ hj
    simp [CVec.unit, CVec.mk', hj]
  · intro h; exact absurd (Finset.mem_range.2 hk) h

/-- Applying a final reduction matrix. -/
theorem final_apply {D : DR R} {k : Nat} {L : List IVec} {M : CMat R} {c : Nat → Nat → R}
    (hM : FinalOK D k L M c) (G : CVec R) (hG : G.len = L.length) :
    ∃ H, ∃ c' : Nat → R, M.mulVec G = .ok H ∧ H.len = D.basis.length ∧
      (∀ r, r < D.basis.length → H.e r = (poleFact D r : R) * c' r) ∧
      combo D.n L G.e - ∑ r ∈ Finset.range D.basis.length, c' r • xpow R (ev D.n (D.basis.getD r []))
        ∈ Ex (DRpoly D) D.d := by
  obtain ⟨H, eH, hHl, hH⟩ := mulVec_ok M G (by rw [hM.cols, hG])
  refine ⟨H, fun r => ∑ t ∈ Finset.range L.length, c r t * G.e t, eH, by rw [hHl, hM.rows], ?_, ?_⟩
  · intro r hr
    rw [hH r (by rw [hM.rows]; exact hr), hM.cols, Finset.mul_sum]
    refine Finset.sum_congr rfl (fun t ht => ?_)
    rw [hM.fact r t hr (Finset.mem_range.1 ht), mul_assoc]
  · exact apply_rel _ _ _ _ _ _ hM.rel G.e

theorem combo_unit {n : Nat} {L : List IVec} {k : Nat} (hk : k < L.length) :
    combo n L (CVec.unit (R := R) L.length k).e = xpow R (ev n (L.getD k [])) := by
  rw [combo, Finset.sum_eq_single k]
  · simp [CVec.unit, CVec.mk', hk]
  · intro j _ hj
    simp [CVec.unit, CVec.mk', hj]
  · intro h; exact absurd (Finset.mem_range.2 hk) h

theorem monomialToBasisJ_ok [Nontrivial R] {solve : Solver R} (hsolve : SolverOK solve) {D : DR R}
    (hD : DROk D) (htop : TopOK solve D) (hB : BasisOK solve D) (hn : 1 ≤ D.n) {u : IVec}
    (hu : u.length = D.n + 1) (hpos : ∀ x ∈ u, 0 < x) (m : Nat) (hm : u.sum = m * D.d) :
    ∃ H, ∃ c : Nat → R, monomialToBasisJ solve D u = .ok H ∧ H.len = D.basis.length ∧
      (∀ r, r < D.basis.length → H.e r = (poleFact D r : R) * c r) ∧
      xpow R (fun i => ev D.n u i - 1)
        - ∑ r ∈ Finset.range D.basis.length, c r • xpow R (ev D.n (D.basis.getD r []))
          ∈ Ex (DRpoly D) D.d := by
  have hd := hD.hd
  have hd0 : D.d ≠ 0 := by omega
  have hu0 : NonNeg u := fun x hx => le_of_lt (hpos x hx)
  have hev : ∀ i : Fin (D.n + 1), 1 ≤ ev D.n u i := by
    intro i
    have hi : i.val < u.length := by rw [hu]; exact i.isLt
    rw [ev, getD_getElem _ _ _ hi]
    have := hpos _ (List.getElem_mem hi)
    omega
  have hsum : (D.n : Int) + 1 ≤ u.sum := by
    rw [← sum_ev hu]
    calc (D.n : Int) + 1 = ∑ i : Fin (D.n + 1), 1 := by simp
      _ ≤ _ := Finset.sum_le_sum (fun i _ => hev i)
  have hmod : sumVec u % (D.d : Int) = 0 := by rw [sumVec_eq_sum, hm]; simp
  have hdiv : sumVec u / (D.d : Int) = m := by
    rw [sumVec_eq_sum, hm]; exact Int.mul_ediv_cancel _ (by omega)
  have hall : u.all (fun x => decide (0 < x)) = true := by
    rw [List.all_eq_true]; intro x hx; simpa using hpos x hx
  unfold monomialToBasisJ
  rw [decide_eq_true hu, check_true, Res.bind_ok, hall, check_true, Res.bind_ok]
  simp only
  rw [if_neg hd0, hmod, hdiv]
  simp only [decide_true, check_true, Res.bind_ok]
  have hdn : (D.n : Int) * D.d ≥ D.n * (D.n + 1) := by nlinarith
  have hnn : (D.n : Int) * (D.n + 1) ≥ D.n + D.n := by nlinarith
  by_cases hmn : (D.n : Int) < m
  · rw [if_pos hmn]
    obtain ⟨listG, hG, eG, eG'⟩ := D.list_ok hD ((D.d : Int) * D.n - D.n) (by nlinarith) (by nlinarith)
    rw [eG, Res.bind_ok, eG', Res.bind_ok]
    -- the vector `w`
    have hr0 : (0 : Int) ≤ (D.d : Int) * D.n - D.n := by nlinarith
    obtain ⟨w, ew, hwl, hw0, hwle, hws⟩ : ∃ w, tweak u ((D.d : Int) * D.n - D.n) = .ok w ∧
        w.length = D.n + 1 ∧ NonNeg w ∧ (∀ i, ev D.n w i ≤ ev D.n u i) ∧
        w.sum = u.sum - ((D.d : Int) * D.n - D.n) := by
      refine ⟨_, by rw [tweak, if_neg (by omega)], ?_⟩
      have hp := tweakNat_props u ((D.d : Int) * D.n - D.n).toNat hu0
      have hle : (((D.d : Int) * D.n - D.n).toNat : Int) = (D.d : Int) * D.n - D.n :=
        Int.toNat_of_nonneg hr0
      obtain ⟨p1, p2, p3⟩ := hp
      have hl : (tweakNat u ((D.d : Int) * D.n - D.n).toNat).length = D.n + 1 := by
        rw [p2.1, hu]
      refine ⟨hl, p1, ?_, ?_⟩
      · intro i
        have h1 : i.val < (tweakNat u ((D.d : Int) * D.n - D.n).toNat).length := by
          rw [hl]; exact i.isLt
        have h2 : i.val < u.length := by rw [hu]; exact i.isLt
        rw [ev, ev, getD_getElem _ _ _ h1, getD_getElem _ _ _ h2]
        exact p2.2 _ h1 h2
      · rw [p3, hle, min_eq_left]
        rw [hm]; nlinarith
    have hs2 : w.sum = ((m : Int) - D.n).toNat * D.d + D.n := by
      rw [hws, hm, Int.toNat_of_nonneg (by omega)]; ring
    have hlen : u.length = w.length := by omega
    have hstup : IsTuple (D.n + 1) ((D.d : Int) * D.n - D.n) (List.zipWith (· - ·) u w) := by
      refine tuple_of_ev (by rw [List.length_zipWith, hu, hwl, min_self]) (fun i => ?_) ?_
      · rw [ev_sub hlen]; have := hwle i; simp only [Pi.sub_apply]; omega
      · rw [ev_sub hlen, Finset.sum_congr rfl (fun i _ => Pi.sub_apply _ _ i),
          Finset.sum_sub_distrib, sum_ev hu, sum_ev hwl, hws]; ring
    obtain ⟨i1, i2, i3⟩ := hG.idx hstup
    rw [ew, Res.bind_ok, subVec_ok hlen, Res.bind_ok, i3, Res.bind_ok]
    obtain ⟨w', G', e1, a1, a2, a3, a4, a5⟩ := mtbLoop_ok hsolve hD htop hn eG
      ((m : Int) - D.n).toNat w (CVec.unit (R := R) listG.length
        (listG.idxOf (List.zipWith (· - ·) u w))) hwl hw0 hs2 rfl
    rw [e1, Res.bind_ok]
    simp only
    rw [sumVec_eq_sum, a3]
    simp only [decide_true, check_true, Res.bind_ok]
    obtain ⟨listG', listH, Mi, b1, b2, -, b4, b5, b6, b7, b8⟩ := inclMatJ_ok hD hn a1 a3
    rw [eG] at b1
    cases b1
    rw [b5, Res.bind_ok]
    obtain ⟨G2, e2, c1, c2⟩ := mulVec_ok Mi G' (by omega)
    rw [e2, Res.bind_ok]
    obtain ⟨L, M, c, e3, hM⟩ := finalMatJ_ok hsolve hD hB D.n hn (le_refl _)
    have hLH : L = listH := by
      have h1 := hM.list
      have h2 : (D.n : Int) * D.d - (D.n + 1) = (D.d : Int) * D.n - D.n - 1 := by ring
      rw [h2, b2] at h1
      exact (Except.ok.inj h1).symm
    rw [hLH] at hM
    rw [e3, Res.bind_ok]
    obtain ⟨H, c', e4, f1, f2, f3⟩ := final_apply hM G2 (by omega)
    refine ⟨H, c', e4, f1, f2, ?_⟩
    -- put the relations together
    have g1 : family D.n listG (ev D.n w) (CVec.unit (R := R) listG.length
        (listG.idxOf (List.zipWith (· - ·) u w))).e = xpow R (fun i => ev D.n u i - 1) := by
      rw [family_unit _ i1, i2, ev_sub hlen]
      congr 1
      funext i
      simp only [Pi.sub_apply]
      ring
    have g2 : family D.n listG (ev D.n w') G'.e = combo D.n listH G2.e := by
      rw [combo, Finset.sum_congr rfl (fun r hr => by
        rw [c2 r (by have := Finset.mem_range.1 hr; omega)])]
      rw [family, Finset.sum_congr rfl (fun k hk => by rw [← b8 k (Finset.mem_range.1 hk)])]
      simp only [Finset.smul_sum, Finset.sum_smul, smul_smul, b7]
      rw [Finset.sum_comm]
      refine Finset.sum_congr rfl (fun r _ => Finset.sum_congr rfl (fun k _ => ?_))
      rw [mul_comm]
    rw [g1, g2] at a5
    have := Submodule.add_mem _ a5 f3
    rwa [sub_add_sub_cancel] at this
  · rw [if_neg hmn]
    have hm1 : 1 ≤ m := by
      rcases Nat.eq_zero_or_pos m with h | h
      · rw [h] at hm; simp at hm; omega
      · exact h
    obtain ⟨L, M, c, e3, hM⟩ := finalMatJ_ok hsolve hD hB m hm1 (by omega)
    have hlev : sumVec u - ((D.n : Int) + 1) = (m : Int) * D.d - (D.n + 1) := by
      rw [sumVec_eq_sum, hm]
    have hmd : (m : Int) * D.d ≤ D.n * D.d := by nlinarith
    obtain ⟨L', -, eL', eL''⟩ := D.list_ok hD ((m : Int) * D.d - (D.n + 1)) (by rw [← hm]; omega)
      (by nlinarith)
    rw [hM.list] at eL'
    cases eL'
    rw [hlev, hM.list, Res.bind_ok, eL'', Res.bind_ok]
    have hevm : ∀ i, ev D.n (u.map (· - 1)) i = ev D.n u i - 1 := by
      intro i
      have hi : i.val < u.length := by rw [hu]; exact i.isLt
      rw [ev, ev, getD_getElem _ _ _ hi, getD_getElem _ _ _ (by simpa using hi), List.getElem_map]
    have htup : IsTuple (D.n + 1) ((m : Int) * D.d - (D.n + 1)) (u.map (· - 1)) := by
      refine tuple_of_ev (by simp [hu]) (fun i => ?_) ?_
      · rw [hevm]; have := hev i; omega
      · rw [Finset.sum_congr rfl (fun i _ => hevm i), Finset.sum_sub_distrib, sum_ev hu, hm]; simp
    obtain ⟨i1, i2, i3⟩ := hM.table.idx htup
    rw [i3, Res.bind_ok, Int.toNat_natCast, e3, Res.bind_ok]
    obtain ⟨H, c', e4, f1, f2, f3⟩ := final_apply hM (CVec.unit (R := R) L.length
      (L.idxOf (u.map (· - 1)))) rfl
    refine ⟨H, c', e4, f1, f2, ?_⟩
    rw [combo_unit i1, i2] at f3
    have : ev D.n (u.map (· - 1)) = fun i => ev D.n u i - 1 := funext hevm
    rwa [this] at f3

end Verif
