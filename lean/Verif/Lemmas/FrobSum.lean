import Verif.Lemmas.FrobVar

/-! The map of terms of the Frobenius functions: adding the new terms and merging the reduced ones. -/

namespace Verif

open Spec MvPolynomial

/-! ### Sums over a map -/

section

variable {V A : Type} [AddCommGroup A]

/-- The sum of `g` over the entries. -/
def msum (g : IVec → V → A) (m : MonMap V) : A := (m.map (fun e => g e.1 e.2)).sum

@[simp] theorem msum_nil (g : IVec → V → A) : msum g [] = 0 := rfl

theorem msum_cons (g : IVec → V → A) (e : IVec × V) (m : MonMap V) :
    msum g (e :: m) = g e.1 e.2 + msum g m := by simp [msum]

theorem msum_set {n : Nat} (hn : 0 < n) (g : IVec → V → A) {m : MonMap V} (hl : MonMap.KeyLen n m)
    (hs : MonMap.Sorted m) {k : IVec} (hk : k.length = n) (v : V) :
    msum g (MonMap.set m k v) + (match MonMap.find? m k with | some x => g k x | none => 0) = msum g m + g k v := by
  induction m with
  | nil => simp [MonMap.set, msum_cons]
  | cons e m ih =>
    obtain ⟨k', v'⟩ := e
    have hk' : k'.length = n := hl k' (by simp [MonMap.keys])
    have hkl : MonMap.KeyLen n m := fun x hx => hl x (by
      simp only [MonMap.keys, List.map_cons, List.mem_cons]; right; exact hx)
    have hs' := hs
    simp only [MonMap.Sorted, MonMap.keys, List.map_cons, List.pairwise_cons] at hs'
    have hne : k ≠ [] := by rintro rfl; simp at hk; omega
    rw [MonMap.set]
    split
    · next he =>
      subst he
      simp only [MonMap.find?_cons, if_true, msum_cons]
      abel
    · next he =>
      split
      · next hlt =>
        rw [keyLt_iff (by omega) hne] at hlt
        have hno : MonMap.find? m k = none := by
          cases hf : MonMap.find? m k with
          | none => rfl
          | some y =>
            have hmem : k ∈ MonMap.keys m := (MonMap.mem_keys_iff m k).2 ⟨y, hf⟩
            exact absurd (hlt.trans (hs'.1 k hmem)) (LexLt.irrefl k)
        simp only [msum_cons, MonMap.find?_cons, if_neg he, hno]
        abel
      · simp only [msum_cons, MonMap.find?_cons, if_neg he]
        rw [add_assoc, ih hkl hs'.2]
        abel

theorem mem_of_find? {m : MonMap V} {k : IVec} {x : V} (h : MonMap.find? m k = some x) : (k, x) ∈ m := by
  induction m with
  | nil => simp at h
  | cons e m ih =>
    obtain ⟨k', v'⟩ := e
    rw [MonMap.find?_cons] at h
    split at h
    · next he => subst he; cases h; simp
    · exact List.mem_cons_of_mem _ (ih h)

end

section

variable {R : Type} [CommRing R]

/-! ### Well-formed maps of terms -/

/-- The terms with pole order `p e`. -/
structure TermsOK (n d len e : Nat) (H : MonMap (CVec R)) : Prop where
  klen : MonMap.KeyLen (n + 1) H
  sorted : MonMap.Sorted H
  entry : ∀ t ∈ H, NonNeg t.1 ∧ t.1.sum = e * d ∧ t.2.len = len

omit [CommRing R] in
theorem TermsOK.nil (n d len e : Nat) : TermsOK n d len e ([] : MonMap (CVec R)) :=
  ⟨MonMap.keyLen_nil _, MonMap.sorted_nil, by simp⟩

omit [CommRing R] in
theorem TermsOK.set {n d len e : Nat} {H : MonMap (CVec R)} (h : TermsOK n d len e H) {k : IVec}
    (hk : k.length = n + 1) (h0 : NonNeg k) (hs : k.sum = e * d) {G : CVec R} (hG : G.len = len) :
    TermsOK n d len e (H.set k G) where
  klen := MonMap.keyLen_set h.klen hk _
  sorted := MonMap.sorted_set (by omega) h.klen h.sorted hk _
  entry := by
    intro t ht
    have : t = (k, G) ∨ t ∈ H := by
      clear h
      induction H with
      | nil => simpa [MonMap.set] using ht
      | cons e' m ih =>
        obtain ⟨k', v'⟩ := e'
        rw [MonMap.set] at ht
        split at ht
        · rcases List.mem_cons.1 ht with ht | ht
          · exact Or.inl ht
          · exact Or.inr (List.mem_cons_of_mem _ ht)
        · split at ht
          · rcases List.mem_cons.1 ht with ht | ht
            · exact Or.inl ht
            · exact Or.inr ht
          · rcases List.mem_cons.1 ht with ht | ht
            · exact Or.inr (by rw [ht]; simp)
            · rcases ih ht with ht | ht
              · exact Or.inl ht
              · exact Or.inr (List.mem_cons_of_mem _ ht)
    rcases this with rfl | ht
    · exact ⟨h0, hs, hG⟩
    · exact h.entry t ht

/-- The polynomial a term stands for. -/
noncomputable def termPoly (n p r : Nat) (L : List IVec) (u : IVec) (G : CVec R) : MvPolynomial (Fin (n + 1)) R :=
  family n L (ev n (tweakNat (mulVec p u) r)) G.e

theorem family_add (n : Nat) (L : List IVec) (u : Fin (n + 1) → ℤ) (G H : Nat → R) :
    family n L u (fun i => G i + H i) = family n L u G + family n L u H := by
  simp only [family, add_smul, Finset.sum_add_distrib]

theorem family_single {n : Nat} {L : List IVec} (u : Fin (n + 1) → ℤ) {k : Nat} (hk : k < L.length) (c : R) :
    family n L u (fun i => if i = k then c else 0) = c • xpow R (fun i => u i + ev n (L.getD k []) i - 1) := by
  rw [family, Finset.sum_eq_single k]
  · simp
  · intro j _ hj; simp [hj]
  · intro h; exact absurd (Finset.mem_range.2 hk) h

theorem family_zero (n : Nat) (L : List IVec) (u : Fin (n + 1) → ℤ) : family n L u (fun _ => (0 : R)) = 0 := by
  simp [family]

/-! ### Expanding monomials -/

theorem expand_xpow {n : Nat} (p : Nat) {a : Fin (n + 1) → ℤ} (h : ∀ i, 0 ≤ a i) :
    expand p (xpow R a) = xpow R (fun i => p * a i) := by
  rw [xpow_of_nonneg h, xpow_of_nonneg (a := fun i => p * a i) (fun i => mul_nonneg (by omega) (h i)), expand_monomial]
  congr 2
  ext i
  have : ((p * (a i).toNat : Nat) : Int) = p * a i := by push_cast; rw [Int.toNat_of_nonneg (h i)]
  simp only [Finsupp.smul_apply, Finsupp.equivFunOnFinite_symm_apply_apply, smul_eq_mul]
  omega

theorem expand_toPoly {n : Nat} (p : Nat) (hp : 1 ≤ p) {P : MonMap R} (hP : ∀ e ∈ P, e.1.length = n + 1 ∧ NonNeg e.1)
    {b : Fin (n + 1) → ℤ} (hb : ∀ i, 0 ≤ b i) :
    expand p (toPoly (n + 1) P) * xpow R (fun i => p * (b i + 1) - 1) =
      msum (fun k c => c • xpow R (fun i => p * (ev n k i + b i + 1) - 1)) P := by
  induction P with
  | nil => simp
  | cons e P ih =>
    rw [toPoly_cons, map_add, add_mul, msum_cons, ih (fun e' he => hP e' (List.mem_cons_of_mem _ he))]
    congr 1
    obtain ⟨-, h0⟩ := hP e (by simp)
    have h1 : (monomial (expo (n + 1) e.1) e.2 : MvPolynomial (Fin (n + 1)) R) = e.2 • xpow R (ev n e.1) := by
      rw [xpow_ev h0, smul_monomial, smul_eq_mul, mul_one]
    rw [h1, map_smul, expand_xpow p (a := ev n e.1) (fun i => nonNeg_getD h0 i), smul_mul_assoc, xpow_mul
      (a := fun i => (p : Int) * ev n e.1 i) (fun i => mul_nonneg (by omega) (nonNeg_getD h0 i)) (fun i => by have := hb i; nlinarith)]
    congr 2
    funext i
    simp only [Pi.add_apply]
    ring

/-! ### Adding terms -/

theorem ev_mulVec (n : Nat) (p : Nat) (u : IVec) : ev n (mulVec p u) = fun i => p * ev n u i := by
  funext i
  simp only [ev, mulVec, List.getD_eq_getElem?_getD, List.getElem?_map]
  cases u[i.val]? <;> simp

theorem ev_ones (n : Nat) : ev n (List.replicate (n + 1) 1) = fun _ => 1 := by
  funext i
  have hi := i.isLt
  rw [ev, getD_getElem _ _ _ (by rw [List.length_replicate]; exact hi), List.getElem_replicate]

theorem mulVec_nonneg {p : Nat} {u : IVec} (h : NonNeg u) : NonNeg (mulVec p u) := by
  intro x hx
  simp only [mulVec, List.mem_map] at hx
  obtain ⟨y, hy, rfl⟩ := hx
  have := h y hy
  positivity

theorem mulVec_sum (p : Int) (u : IVec) : (mulVec p u).sum = p * u.sum := by
  rw [mulVec, List.sum_map_mul_left]; simp

theorem addTerm_ok {n d len e p r : Nat} {L : List IVec} (hlen : len = L.length) {H : MonMap (CVec R)}
    (hH : TermsOK n d len e H) {mon : IVec} (hl : mon.length = n + 1) (h0 : NonNeg mon) (hs : mon.sum = e * d)
    {k : Nat} (hk : k < L.length) (c : R) :
    TermsOK n d len e (addTerm len H mon k c) ∧
    msum (termPoly n p r L) (addTerm len H mon k c) = msum (termPoly n p r L) H +
      c • xpow R (fun i => ev n (tweakNat (mulVec p mon) r) i + ev n (L.getD k []) i - 1) := by
  refine ⟨hH.set hl h0 hs rfl, ?_⟩
  have hset := msum_set (by omega) (termPoly n p r L) hH.klen hH.sorted hl
    (CVec.mk' len (fun i => (match H.find? mon with
      | some G => G
      | none => CVec.mk' len (fun _ => 0)).e i + if i = k then c else 0))
  have hval : ∀ G : CVec R, termPoly n p r L mon (CVec.mk' len (fun i => G.e i + if i = k then c else 0)) =
      termPoly n p r L mon G +
        c • xpow R (fun i => ev n (tweakNat (mulVec p mon) r) i + ev n (L.getD k []) i - 1) := by
    intro G
    rw [termPoly, termPoly, ← family_single _ hk, ← family_add]
    refine family_congr (fun i hi => ?_)
    simp only [CVec.mk', if_pos (show i < len by omega)]
  have hz : termPoly n p r L mon (CVec.mk' len (fun _ => (0 : R))) = 0 := by
    rw [termPoly, ← family_zero n L]
    refine family_congr (fun i hi => ?_)
    simp only [CVec.mk', if_pos (show i < len by omega)]
  unfold addTerm
  cases hf : H.find? mon with
  | none =>
    rw [hf] at hset
    simp only at hset ⊢
    rw [add_zero] at hset
    rw [hset, hval, hz, zero_add]
  | some G =>
    rw [hf] at hset
    simp only at hset ⊢
    rw [hval] at hset
    refine add_right_cancel (b := termPoly n p r L mon G) ?_
    rw [hset]; abel

/-- The position of a term with pole order `p e`. -/
theorem tweak_term {n d p r e : Nat} {u : IVec} (hu : u.length = n + 1) (h0 : NonNeg u) (hs : u.sum = e * d)
    (hr : (r : Int) ≤ p * (e * d)) :
    (tweakNat (mulVec p u) r).length = n + 1 ∧ NonNeg (tweakNat (mulVec p u) r) ∧
    (∀ i, ev n (tweakNat (mulVec p u) r) i ≤ ev n (mulVec p u) i) ∧
    IsTuple (n + 1) r (List.zipWith (· - ·) (mulVec p u) (tweakNat (mulVec p u) r)) := by
  obtain ⟨p1, p2, p3⟩ := tweakNat_props (mulVec p u) r (mulVec_nonneg h0)
  have hl : (tweakNat (mulVec (p : Int) u) r).length = n + 1 := by rw [tweakNat_length, mulVec_length, hu]
  have hle : ∀ i, ev n (tweakNat (mulVec p u) r) i ≤ ev n (mulVec p u) i := by
    intro i
    have h1 : i.val < (tweakNat (mulVec (p : Int) u) r).length := by rw [hl]; exact i.isLt
    have h2 : i.val < (mulVec (p : Int) u).length := by rw [mulVec_length, hu]; exact i.isLt
    rw [ev, ev, getD_getElem _ _ _ h1, getD_getElem _ _ _ h2]
    exact p2.2 _ h1 h2
  have hlen : (mulVec (p : Int) u).length = (tweakNat (mulVec (p : Int) u) r).length := by
    rw [tweakNat_length]
  refine ⟨hl, p1, hle, tuple_of_ev (by rw [List.length_zipWith, mulVec_length, hu, hl, min_self]) (fun i => ?_) ?_⟩
  · rw [ev_sub hlen]; have := hle i; simp only [Pi.sub_apply]; omega
  · rw [ev_sub hlen, Finset.sum_congr rfl (fun i _ => Pi.sub_apply _ _ i), Finset.sum_sub_distrib,
      sum_ev (by rw [mulVec_length, hu]), sum_ev hl, p3, mulVec_sum, hs, min_eq_left hr]; ring

theorem foldlM_acc {α σ A : Type} [AddCommMonoid A] {f : σ → α → Res σ} (P : σ → Prop) (val : σ → A) (g : α → A)
    {l : List α} (h : ∀ s x, x ∈ l → P s → ∃ s', f s x = .ok s' ∧ P s' ∧ val s' = val s + g x) :
    ∀ s, P s → ∃ s', l.foldlM f s = .ok s' ∧ P s' ∧ val s' = val s + (l.map g).sum := by
  induction l with
  | nil => intro s hs; exact ⟨s, rfl, hs, by simp⟩
  | cons x l ih =>
    intro s hs
    obtain ⟨s1, e1, p1, v1⟩ := h s x (by simp) hs
    obtain ⟨s2, e2, p2, v2⟩ := ih (fun s x hx => h s x (List.mem_cons_of_mem _ hx)) s1 p1
    refine ⟨s2, ?_, p2, by rw [v2, v1, List.map_cons, List.sum_cons, add_assoc]⟩
    rw [List.foldlM_cons]
    show f s x >>= _ = _
    rw [e1]
    exact e2

theorem addTerms_ok {D : DR R} {p e m r : Nat} {L : List IVec} {ei : IVec} (hd : D.n < D.d)
    (hr : r = D.d * D.n - D.n) (hL : IsTable D.n r L) (hel : ei.length = D.n + 1) (he0 : NonNeg ei)
    (hes : ei.sum = (m : Int) * D.d - (D.n + 1)) (hme : m ≤ e) (hre : (r : Int) ≤ p * (e * D.d))
    {P : MonMap R} (hP : WFPoly (D.n + 1) P) (hPd : ∀ t ∈ P, deg t.1 = ((e - m : Nat) : Int) * D.d) (c : R → R)
    {H : MonMap (CVec R)} (hH : TermsOK D.n D.d L.length e H) :
    ∃ H', addTerms D p ei c (buildDict L) P H = .ok H' ∧ TermsOK D.n D.d L.length e H' ∧
      msum (termPoly D.n p r L) H' = msum (termPoly D.n p r L) H +
        msum (fun k a => c a • xpow R (fun i => p * (ev D.n k i + ev D.n ei i + 1) - 1)) P := by
  have hle : D.n ≤ D.d * D.n := Nat.le_mul_of_pos_left _ (by omega)
  have er : (r : Int) = (D.d : Int) * D.n - D.n := by rw [hr, Nat.cast_sub hle]; push_cast; ring
  obtain ⟨H', e1, p1, v1⟩ := foldlM_acc (TermsOK D.n D.d L.length e) (msum (termPoly D.n p r L))
    (fun t : IVec × R => c t.2 • xpow R (fun i => p * (ev D.n t.1 i + ev D.n ei i + 1) - 1)) (l := P)
    (f := fun H it => do
      let a ← addVec it.1 ei
      let mon ← addVec a (List.replicate (D.n + 1) 1)
      let w ← tweak (mulVec p mon) ((D.d : Int) * D.n - D.n)
      let s ← subVec (mulVec p mon) w
      let k ← look (buildDict L) s
      pure (addTerm (buildDict L).length H mon k (c it.2))) (by
    intro s t ht hs
    obtain ⟨tl, t0⟩ := hP.1 t ht
    have l1 : (List.zipWith (· + ·) t.1 ei).length = D.n + 1 := by rw [List.length_zipWith, tl, hel, min_self]
    have l2 : (List.zipWith (· + ·) (List.zipWith (· + ·) t.1 ei) (List.replicate (D.n + 1) 1)).length = D.n + 1 := by
      rw [List.length_zipWith, l1, List.length_replicate, min_self]
    have hev : ev D.n (List.zipWith (· + ·) (List.zipWith (· + ·) t.1 ei) (List.replicate (D.n + 1) 1)) =
        fun i => ev D.n t.1 i + ev D.n ei i + 1 := by
      rw [ev_add (by rw [l1, List.length_replicate]), ev_add (by rw [tl, hel]), ev_ones]
      funext i; simp
    have hnn : NonNeg (List.zipWith (· + ·) (List.zipWith (· + ·) t.1 ei) (List.replicate (D.n + 1) 1)) :=
      nonNeg_of_ev l2 (fun i => by
        rw [hev]; have := nonNeg_getD t0 i; have := nonNeg_getD he0 i; simp only [ev]; omega)
    have hsum : (List.zipWith (· + ·) (List.zipWith (· + ·) t.1 ei) (List.replicate (D.n + 1) (1 : Int))).sum = (e : Int) * D.d := by
      rw [sum_zipWith_add (by rw [l1, List.length_replicate]), sum_zipWith_add (by rw [tl, hel])]
      have h1 := hPd t ht
      rw [deg] at h1
      rw [h1, hes, List.sum_replicate, Nat.cast_sub hme]
      simp only [nsmul_eq_mul]; push_cast; ring
    obtain ⟨w1, w2, w3, w4⟩ := tweak_term (p := p) l2 hnn hsum hre
    obtain ⟨i1, i2, i3⟩ := hL.idx w4
    obtain ⟨q1, q2⟩ := addTerm_ok (p := p) (r := r) (L := L) rfl hs l2 hnn hsum i1 (c t.2)
    refine ⟨_, ?_, q1, ?_⟩
    · rw [addVec_ok (by rw [tl, hel]), Res.bind_ok, addVec_ok (by rw [l1, List.length_replicate]), Res.bind_ok,
        tweak, if_neg (by rw [← er]; omega), Res.bind_ok, ← er, Int.toNat_natCast,
        subVec_ok (by rw [tweakNat_length]), Res.bind_ok, i3, Res.bind_ok, buildDict_length hL.nodup]
      rfl
    · rw [q2, i2]
      congr 2
      congr 1
      funext i
      have h5 := congrFun (ev_sub (n := D.n) (show (mulVec (p : Int) (List.zipWith (· + ·) (List.zipWith (· + ·) t.1 ei) (List.replicate (D.n + 1) 1))).length = (tweakNat (mulVec (p : Int) (List.zipWith (· + ·) (List.zipWith (· + ·) t.1 ei) (List.replicate (D.n + 1) 1))) r).length by rw [tweakNat_length])) i
      rw [h5, Pi.sub_apply, ev_mulVec, hev]
      ring) H hH
  exact ⟨H', e1, p1, v1⟩

/-! ### Merging terms -/

theorem accTerm_ok {n d len e p r : Nat} {L : List IVec} (hlen : len = L.length) {H : MonMap (CVec R)}
    (hH : TermsOK n d len e H) {y : IVec} (hl : y.length = n + 1) (h0 : NonNeg y) (hs : y.sum = e * d)
    {G : CVec R} (hG : G.len = len) :
    ∃ H', accTerm H y G = .ok H' ∧ TermsOK n d len e H' ∧
      msum (termPoly n p r L) H' = msum (termPoly n p r L) H + termPoly n p r L y G := by
  unfold accTerm
  cases hf : H.find? y with
  | none =>
    refine ⟨_, rfl, hH.set hl h0 hs hG, ?_⟩
    have := msum_set (by omega) (termPoly n p r L) hH.klen hH.sorted hl G
    rw [hf] at this
    simpa using this
  | some x =>
    have hx := (hH.entry _ (mem_of_find? hf)).2.2
    simp only at hx
    refine ⟨H.set y (CVec.mk' x.len (fun i => x.e i + G.e i)), ?_, hH.set hl h0 hs hx, ?_⟩
    · simp only [CVec.add, if_pos (hx.trans hG.symm), Res.bind_ok, Res.pure_eq]
    · have := msum_set (by omega) (termPoly n p r L) hH.klen hH.sorted hl (CVec.mk' x.len (fun i => x.e i + G.e i))
      rw [hf] at this
      simp only at this
      have hv : termPoly n p r L y (CVec.mk' x.len (fun i => x.e i + G.e i)) =
          termPoly n p r L y x + termPoly n p r L y G := by
        rw [termPoly, termPoly, termPoly, ← family_add]
        refine family_congr (fun i hi => ?_)
        simp only [CVec.mk', if_pos (show i < x.len by omega)]
      rw [hv] at this
      refine add_right_cancel (b := termPoly n p r L y x) ?_
      rw [this]; abel

end

end Verif
