import Verif.Lemmas.NDMatrix

/-!
The reduction matrices of the non-degenerate object.

The computation is followed through a linear map `Φ` on polynomials, standing for multiplication by
`x^u / (x_0 ... x_n)`, and a submodule `E` of exact elements; the only property used is that
`Φ(x^w x_i ∂_i f)` and `(u_i + w_i) Φ(x^w)` differ by an element of `E`.
-/

namespace Verif

open Spec MvPolynomial

variable {R : Type} [CommRing R]

/-! ### Monomials in `u` -/

theorem ndMon_eq (n : Nat) (u key : IVec) :
    ndMon n u key = ∏ i : Fin (n + 1), ev n u i ^ (ev n key i).toNat := by
  rw [ndMon, foldl_mul_range, one_mul, Finset.prod_range]; rfl

theorem ndUnit_length (n i : Nat) : (ndUnit n i).length = n + 1 := by simp [ndUnit]

theorem ev_ndUnit {n : Nat} (i j : Fin (n + 1)) : ev n (ndUnit n i) j = if j = i then 1 else 0 := by
  rw [ev, ndUnit, getD_set _ _ _ _ (by rw [List.length_replicate]; exact i.isLt)]
  by_cases h : j = i
  · rw [if_pos (by rw [h]), if_pos h]
  · rw [if_neg (fun h' => h (Fin.ext h')), if_neg h,
      getD_getElem _ _ _ (by rw [List.length_replicate]; exact j.isLt), List.getElem_replicate]

theorem ndUnit_nonNeg (n i : Nat) : NonNeg (ndUnit n i) := by
  intro x hx
  rw [ndUnit] at hx
  rcases List.mem_or_eq_of_mem_set hx with h | h
  · rw [List.mem_replicate] at h; omega
  · omega

theorem ndUnit_sum {n : Nat} (i : Fin (n + 1)) : (ndUnit n i).sum = 1 := by
  rw [← sum_ev (ndUnit_length n i), Finset.sum_congr rfl (fun j _ => ev_ndUnit i j)]
  simp

theorem ndMon_unit {n : Nat} (u : IVec) {key : IVec} (hl : key.length = n + 1) (h0 : NonNeg key)
    (i : Fin (n + 1)) :
    ndMon n u (List.zipWith (· + ·) key (ndUnit n i)) = ndMon n u key * ev n u i := by
  rw [ndMon_eq, ndMon_eq, ev_add (by rw [hl, ndUnit_length])]
  have : ∀ j, ev n u j ^ ((ev n key + ev n (ndUnit n i)) j).toNat
      = ev n u j ^ (ev n key j).toNat * (if j = i then ev n u j else 1) := by
    intro j
    have : 0 ≤ ev n key j := nonNeg_getD h0 j
    rw [Pi.add_apply, ev_ndUnit, Int.toNat_add this (by by_cases h : j = i <;> simp [h]), pow_add]
    congr 1
    split <;> simp
  rw [Finset.prod_congr rfl (fun j _ => this j), Finset.prod_mul_distrib]
  simp

theorem ndMon_zero (n : Nat) (u : IVec) : ndMon n u (List.replicate (n + 1) 0) = 1 := by
  rw [ndMon_eq]
  apply Finset.prod_eq_one
  intro i _
  rw [ev, ev, getD_getElem (List.replicate _ _) _ _ (by rw [List.length_replicate]; exact i.isLt),
    List.getElem_replicate]
  simp

/-! ### Well-formed maps -/

/-- A key: an exponent vector of degree at most `b`. -/
structure KeyOK (n b : Nat) (k : IVec) : Prop where
  len : k.length = n + 1
  nonneg : NonNeg k
  deg : k.sum ≤ b

theorem KeyOK.mono {n b b' : Nat} {k : IVec} (h : KeyOK n b k) (hb : b ≤ b') : KeyOK n b' k :=
  ⟨h.len, h.nonneg, by have := h.deg; omega⟩

theorem KeyOK.unit {n b : Nat} {k : IVec} (h : KeyOK n b k) (i : Fin (n + 1)) :
    addVec k (ndUnit n i) = .ok (List.zipWith (· + ·) k (ndUnit n i)) ∧
      KeyOK n (b + 1) (List.zipWith (· + ·) k (ndUnit n i)) := by
  have hl : k.length = (ndUnit n i).length := by rw [h.len, ndUnit_length]
  refine ⟨addVec_ok hl, by rw [List.length_zipWith, h.len, ndUnit_length, min_self],
    nonNeg_add h.nonneg (ndUnit_nonNeg n i), ?_⟩
  have hl2 : (List.zipWith (· + ·) k (ndUnit n i)).length = n + 1 := by
    rw [List.length_zipWith, h.len, ndUnit_length, min_self]
  rw [← sum_ev hl2, ev_add hl, Finset.sum_congr rfl (fun j _ => Pi.add_apply _ _ j),
    Finset.sum_add_distrib, sum_ev h.len, sum_ev (ndUnit_length n i), ndUnit_sum]
  have := h.deg
  push_cast; omega

theorem keyOK_zero (n : Nat) : KeyOK n 0 (List.replicate (n + 1) 0) :=
  ⟨by simp, by intro x hx; rw [List.mem_replicate] at hx; omega, by simp⟩

section

variable {V : Type}

/-- The map is sorted, its keys and entries satisfy what is asked. -/
structure MapOK (n : Nat) (P : IVec → V → Prop) (H : MonMap V) : Prop where
  klen : MonMap.KeyLen (n + 1) H
  sorted : MonMap.Sorted H
  entry : ∀ t ∈ H, P t.1 t.2

theorem MapOK.nil (n : Nat) (P : IVec → V → Prop) : MapOK n P ([] : MonMap V) :=
  ⟨MonMap.keyLen_nil _, MonMap.sorted_nil, by simp⟩

theorem mem_mapSet {H : MonMap V} {k : IVec} {G : V} {t : IVec × V} (ht : t ∈ H.set k G) :
    t = (k, G) ∨ t ∈ H := by
  induction H with
  | nil => simpa [MonMap.set] using ht
  | cons e' m ih =>
    obtain ⟨k', v'⟩ := e'
    rw [MonMap.set] at ht
    split at ht
    · rcases List.mem_cons.1 ht with ht | ht
      · exact Or.inl ht
      · exact Or.inr (List.mem_cons_of_mem _ ht)
    · split at ht
      · rcases List.mem_cons.1 ht with ht | ht
        · exact Or.inl ht
        · exact Or.inr ht
      · rcases List.mem_cons.1 ht with ht | ht
        · exact Or.inr (by rw [ht]; simp)
        · rcases ih ht with ht | ht
          · exact Or.inl ht
          · exact Or.inr (List.mem_cons_of_mem _ ht)

theorem MapOK.set {n : Nat} {P : IVec → V → Prop} {H : MonMap V} (h : MapOK n P H) {k : IVec} {G : V}
    (hk : k.length = n + 1) (hG : P k G) : MapOK n P (H.set k G) where
  klen := MonMap.keyLen_set h.klen hk _
  sorted := MonMap.sorted_set (by omega) h.klen h.sorted hk _
  entry := by
    intro t ht
    rcases mem_mapSet ht with rfl | ht
    · exact hG
    · exact h.entry t ht

/-- Replacing the value at a key changes the sum by the difference of the values. -/
theorem msum_upd {A : Type} [AddCommGroup A] {n : Nat} {P : IVec → V → Prop} {H : MonMap V} (h : MapOK n P H)
    (g : IVec → V → A) {k : IVec} (hk : k.length = n + 1) (z G : V) (hz : g k z = 0) {x : A}
    (hG : g k G = g k ((MonMap.find? H k).getD z) + x) : msum g (H.set k G) = msum g H + x := by
  have := msum_set (by omega) g h.klen h.sorted hk G
  cases hf : MonMap.find? H k with
  | none =>
    rw [hf] at this hG
    simp only [Option.getD_none] at hG
    simp only at this
    rw [add_zero] at this
    rw [this, hG, hz, zero_add]
  | some y =>
    rw [hf] at this hG
    simp only [Option.getD_some] at hG
    simp only at this
    rw [hG] at this
    refine add_right_cancel (b := g k y) ?_
    rw [this]; abel

theorem msum_congr {A : Type} [AddCommGroup A] {g g' : IVec → V → A} {H : MonMap V}
    (h : ∀ t ∈ H, g t.1 t.2 = g' t.1 t.2) : msum g H = msum g' H := by
  unfold msum
  congr 1
  exact List.map_congr_left (fun t ht => h t ht)

end

/-! ### The polynomials with vector coefficients -/

/-- Entries of `H`: vectors of length `len`, keys of degree at most `b`. -/
def HOK (n len b : Nat) : MonMap (CVec R) → Prop :=
  MapOK n (fun k G => KeyOK n b k ∧ G.len = len)

/-- The polynomial denoted by `H` at `u`. -/
noncomputable def hval (n : Nat) (u : IVec) (L : List IVec) (H : MonMap (CVec R)) :
    MvPolynomial (Fin (n + 1)) R :=
  msum (fun k G => ((ndMon n u k : Int) : R) • combo n L G.e) H

theorem combo_zero (n : Nat) (L : List IVec) : combo n L (fun _ => (0 : R)) = 0 := by simp [combo]

theorem hAdd_ok {n b : Nat} (u : IVec) {L : List IVec} {H : MonMap (CVec R)} (hH : HOK n L.length b H)
    {k : IVec} (hk : KeyOK n b k) {c : Nat} (hc : c < L.length) (x : R) :
    ∃ H', hAdd L.length H k c x = .ok H' ∧ HOK n L.length b H' ∧
      hval n u L H' = hval n u L H + (((ndMon n u k : Int) : R) * x) • xpow R (ev n (L.getD c [])) := by
  have e1 : addTerm L.length H k c x = H.set k (CVec.mk' L.length (fun i =>
      ((MonMap.find? H k).getD (CVec.mk' L.length (fun _ => 0))).e i + if i = c then x else 0)) := by
    rw [addTerm]
    cases MonMap.find? H k <;> rfl
  refine ⟨_, by rw [hAdd, if_pos hc, e1], MapOK.set hH hk.len ⟨hk, rfl⟩, ?_⟩
  refine msum_upd hH _ hk.len (CVec.mk' L.length (fun _ => 0)) _ ?_ ?_
  · rw [combo_congr (G' := fun _ => (0 : R)) (fun i hi => by simp only [CVec.mk', if_pos hi]), combo_zero,
      smul_zero]
  · rw [combo_congr (G' := fun i => ((MonMap.find? H k).getD (CVec.mk' L.length (fun _ => 0))).e i
      + if i = c then x else 0) (fun i hi => by simp only [CVec.mk', if_pos hi]), combo_add,
      combo_single hc, smul_add, smul_smul]

/-- The contribution of one entry: `Σ_i Σ_s F_is (u_i + t_si) x^(t_s)`. -/
noncomputable def scatterVal (n : Nat) (u : IVec) (cnt : Nat) (t : Nat → IVec) (F : Nat → R) :
    MvPolynomial (Fin (n + 1)) R :=
  ∑ i : Fin (n + 1), ∑ s ∈ Finset.range cnt,
    (F (i.val * cnt + s) * ((ev n u i + ev n (t s) i : Int) : R)) • xpow R (ev n (t s))

theorem ndScatter_ok {n b cnt : Nat} (u : IVec) {L : List IVec} {H : MonMap (CVec R)}
    (hH : HOK n L.length (b + 1) H) {k : IVec} (hk : KeyOK n b k) {tgt : Nat → Res (Nat × IVec)}
    {t : Nat → IVec} {c : Nat → Nat}
    (ht : ∀ s, s < cnt → tgt s = .ok (c s, t s) ∧ c s < L.length ∧ L.getD (c s) [] = t s)
    {F : CVec R} (hF : (n + 1) * cnt ≤ F.len) :
    ∃ H', ndScatter n L.length cnt tgt k F H = .ok H' ∧ HOK n L.length (b + 1) H' ∧
      hval n u L H' = hval n u L H + ((ndMon n u k : Int) : R) • scatterVal n u cnt t F.e := by
  have key : ∃ H', ndScatter n L.length cnt tgt k F H = .ok H' ∧ (HOK n L.length (b + 1) H' ∧
      hval n u L H' = hval n u L H + ((ndMon n u k : Int) : R) •
        ∑ i ∈ Finset.range (n + 1), ∑ s ∈ Finset.range cnt,
          (F.e (i * cnt + s) * ((u.getD i 0 + (t s).getD i 0 : Int) : R)) • xpow R (ev n (t s))) := by
    unfold ndScatter
    refine forRange_inv (fun i' (H' : MonMap (CVec R)) => HOK n L.length (b + 1) H' ∧
      hval n u L H' = hval n u L H + ((ndMon n u k : Int) : R) •
        ∑ i ∈ Finset.range i', ∑ s ∈ Finset.range cnt,
          (F.e (i * cnt + s) * ((u.getD i 0 + (t s).getD i 0 : Int) : R)) • xpow R (ev n (t s))) ?_ ?_
    · exact ⟨hH, by simp⟩
    · rintro i H1 hi ⟨h1, h2⟩
      obtain ⟨ek, hki⟩ := hk.unit ⟨i, hi⟩
      simp only at ek hki
      rw [ek, Res.bind_ok]
      obtain ⟨H2, e2, g1, g2⟩ := forRange_inv (n := cnt) (s := H1) (f := fun s Hnew => do
          let ct ← tgt s
          let x ← F.at (i * cnt + s)
          let Hnew ← hAdd L.length Hnew (List.zipWith (· + ·) k (ndUnit n i)) ct.1 x
          hAdd L.length Hnew k ct.1 (((ct.2.getD i 0 : Int) : R) * x))
        (fun s' (H' : MonMap (CVec R)) => HOK n L.length (b + 1) H' ∧
          hval n u L H' = hval n u L H1 + ((ndMon n u k : Int) : R) •
            ∑ s ∈ Finset.range s',
              (F.e (i * cnt + s) * ((u.getD i 0 + (t s).getD i 0 : Int) : R)) • xpow R (ev n (t s)))
        ⟨h1, by simp⟩ (by
          rintro s H2 hs ⟨g1, g2⟩
          obtain ⟨t1, t2, t3⟩ := ht s hs
          have hlt : i * cnt + s < F.len := lt_of_lt_of_le (rowMajor_lt hi hs) hF
          rw [t1, Res.bind_ok, CVec.at, if_pos hlt, Res.bind_ok]
          obtain ⟨H3, e3, a1, a2⟩ := hAdd_ok u g1 hki t2 (F.e (i * cnt + s))
          obtain ⟨H4, e4, b1, b2⟩ := hAdd_ok u a1 (hk.mono (Nat.le_succ b)) t2
            ((((t s).getD i 0 : Int) : R) * F.e (i * cnt + s))
          refine ⟨H4, by rw [e3, Res.bind_ok]; exact e4, b1, ?_⟩
          rw [b2, a2, g2, Finset.sum_range_succ, smul_add, t3]
          have hm := ndMon_unit u hk.len hk.nonneg ⟨i, hi⟩
          simp only at hm
          rw [hm, add_assoc, add_assoc, ← add_smul, smul_smul]
          congr 2
          congr 1
          simp only [ev]
          push_cast
          ring)
      refine ⟨H2, e2, g1, ?_⟩
      rw [g2, h2, Finset.sum_range_succ, smul_add, add_assoc]
  obtain ⟨H', e, h1, h2⟩ := key
  refine ⟨H', e, h1, ?_⟩
  rw [h2, scatterVal, Finset.sum_range]
  rfl

/-! ### The result -/

/-- Entries of the result: square matrices; a key of degree `n+1` has only row 0. -/
def RES (n dim : Nat) : MonMap (CMat R) → Prop :=
  MapOK n (fun k M => KeyOK n (n + 1) k ∧ M.rows = dim ∧ M.cols = dim ∧
    (k.sum = n + 1 → ∀ r c, r ≠ 0 → M.e r c = 0))

/-- Column `c` of the result at `u`, as a polynomial. -/
noncomputable def cval (n : Nat) (u : IVec) (basis : List IVec) (c : Nat) (res : MonMap (CMat R)) :
    MvPolynomial (Fin (n + 1)) R :=
  msum (fun k M => ((ndMon n u k : Int) : R) • combo n basis (fun r => M.e r c)) res

theorem matAdd_ok {n : Nat} (u : IVec) {basis : List IVec} {res : MonMap (CMat R)}
    (hres : RES n basis.length res) {k : IVec} (hk : KeyOK n (n + 1) k) {r c : Nat}
    (hkr : k.sum = n + 1 → r = 0) (hr : r < basis.length) (hc : c < basis.length) (x : R) :
    ∃ res', matAdd basis.length res k r c x = .ok res' ∧ RES n basis.length res' ∧
      ∀ c', cval n u basis c' res' = cval n u basis c' res + if c' = c then
        (((ndMon n u k : Int) : R) * x) • xpow R (ev n (basis.getD r [])) else 0 := by
  obtain ⟨M, hM⟩ : ∃ M, M = (MonMap.find? res k).getD
    (CMat.mk' basis.length basis.length (fun _ _ => (0 : R))) := ⟨_, rfl⟩
  have hdim : M.rows = basis.length ∧ M.cols = basis.length ∧
      (k.sum = n + 1 → ∀ r c, r ≠ 0 → M.e r c = 0) := by
    cases hf : MonMap.find? res k with
    | none =>
      rw [hM, hf]
      refine ⟨rfl, rfl, fun _ r c _ => ?_⟩
      simp only [Option.getD_none, CMat.mk']
      split <;> rfl
    | some y =>
      rw [hM, hf]
      exact (hres.entry _ (mem_of_find? hf)).2
  obtain ⟨d1, d2, d3⟩ := hdim
  refine ⟨res.set k ⟨M.rows, M.cols, fun a b => if a = r ∧ b = c then M.e a b + x else M.e a b⟩,
    by rw [matAdd, ← hM, if_pos ⟨by omega, by omega⟩],
    MapOK.set hres hk.len ⟨hk, d1, d2, ?_⟩, ?_⟩
  · intro hs a b ha
    simp only
    rw [if_neg (by have := hkr hs; omega)]
    exact d3 hs a b ha
  · intro c'
    refine msum_upd hres _ hk.len (CMat.mk' basis.length basis.length (fun _ _ => 0)) _ ?_ ?_
    · rw [combo_congr (G' := fun _ => (0 : R)) (fun i hi => by simp only [CMat.mk']; split <;> rfl),
        combo_zero, smul_zero]
    · rw [← hM]
      by_cases hcc : c' = c
      · subst hcc
        rw [combo_congr (G := fun r_1 => if r_1 = r ∧ c' = c' then M.e r_1 c' + x else M.e r_1 c')
          (G' := fun i => M.e i c' + if i = r then x else 0) (fun i hi => by
          by_cases h : i = r
          · simp [h]
          · simp [h]), combo_add, combo_single hr, smul_add, smul_smul, if_pos rfl]
      · rw [if_neg hcc, add_zero,
          combo_congr (G := fun r_1 => if r_1 = r ∧ c' = c then M.e r_1 c' + x else M.e r_1 c') (G' := fun i => M.e i c') (fun i hi => by simp [hcc])]

theorem CMat.isZero_spec [DecidableEq R] {M : CMat R} (h : M.isZero = true) :
    ∀ r c, r < M.rows → c < M.cols → M.e r c = 0 := by
  intro r c hr hc
  rw [CMat.isZero, List.all_eq_true] at h
  have := List.all_eq_true.1 (h r (List.mem_range.2 hr)) c (List.mem_range.2 hc)
  exact of_decide_eq_true this

theorem RES.filter [DecidableEq R] {n : Nat} {basis : List IVec} {res : MonMap (CMat R)}
    (hres : RES n basis.length res) :
    RES n basis.length (res.filter (fun e => !e.2.isZero)) ∧
      ∀ u c, c < basis.length → cval n u basis c (res.filter (fun e => !e.2.isZero)) = cval n u basis c res := by
  refine ⟨⟨?_, ?_, fun t ht => hres.entry t (List.mem_filter.1 ht).1⟩, ?_⟩
  · intro x hx
    rw [MonMap.keys, List.mem_map] at hx
    obtain ⟨t, ht, rfl⟩ := hx
    exact hres.klen _ (List.mem_map.2 ⟨t, (List.mem_filter.1 ht).1, rfl⟩)
  · have := hres.sorted
    unfold MonMap.Sorted MonMap.keys at this ⊢
    exact this.sublist (List.Sublist.map _ List.filter_sublist)
  · intro u c hc
    have hall : ∀ t ∈ res, t.2.rows = basis.length ∧ t.2.cols = basis.length := fun t ht =>
      ⟨(hres.entry t ht).2.1, (hres.entry t ht).2.2.1⟩
    clear hres
    induction res with
    | nil => rfl
    | cons e res ih =>
      have ih := ih (fun t ht => hall t (List.mem_cons_of_mem _ ht))
      rw [List.filter_cons]
      unfold cval at ih ⊢
      cases hz : e.2.isZero with
      | true =>
        simp only [Bool.not_true, Bool.false_eq_true, if_false]
        rw [ih, msum_cons]
        have : combo n basis (fun r => e.2.e r c) = 0 := by
          rw [combo_congr (G' := fun _ => (0 : R)) (fun i hi => CMat.isZero_spec hz i c
            (by rw [(hall e (by simp)).1]; exact hi) (by rw [(hall e (by simp)).2]; exact hc)), combo_zero]
        rw [this, smul_zero, zero_add]
      | false =>
        simp only [Bool.not_false, if_true]
        rw [msum_cons, msum_cons, ih]

end Verif
