import Verif.Lemmas.Poly
import Verif.Lemmas.DeRham

/-! The exponent vectors produced by `change_of_variables` have the degree of those of its argument. -/

namespace Verif

open Spec

variable {R : Type} [CommRing R]

theorem foldlM_keeps {α σ : Type} {f : σ → α → Res σ} (P : σ → Prop) : ∀ (l : List α) {s r : σ}, P s →
    (∀ s x s', x ∈ l → P s → f s x = .ok s' → P s') → l.foldlM f s = .ok r → P r
  | [], s, r, h0, _, h => by
    have := Except.ok.inj h
    rw [← this]; exact h0
  | x :: l, s, r, h0, hs, h => by
    rw [List.foldlM_cons, Res.bind_eq_ok] at h
    obtain ⟨s', e, h⟩ := h
    exact foldlM_keeps P l (hs s x s' (by simp) h0 e) (fun s y s' hy => hs s y s' (List.mem_cons_of_mem _ hy)) h

theorem forRange_keeps {σ : Type} (P : Nat → σ → Prop) {f : Nat → σ → Res σ} : ∀ (n : Nat) {s r : σ}, P 0 s →
    (∀ i s s', i < n → P i s → f i s = .ok s' → P (i + 1) s') → forRange n s f = .ok r → P n r := by
  intro n s r h0 hs h
  exact (forRange_ok_inv P h0 (fun i s s' hi hp e => hs i s s' hi hp e) h)

/-- All exponent vectors have degree `δ`. -/
def KD (δ : Int) (m : MonMap R) : Prop := ∀ e ∈ m, e.1.sum = δ

omit [CommRing R] in
theorem set_ne_nil (m : MonMap R) (k : IVec) (v : R) : MonMap.set m k v ≠ [] := by
  cases m with
  | nil => simp [MonMap.set]
  | cons e m =>
    obtain ⟨k', v'⟩ := e
    rw [MonMap.set]
    split
    · simp
    · split <;> simp

theorem KD.set {δ : Int} {m : MonMap R} (h : KD δ m) {k : IVec} (hk : k.sum = δ) (v : R) : KD δ (MonMap.set m k v) := by
  intro e he
  rcases mem_set he with rfl | he
  · exact hk
  · exact h e he

theorem KD.accum {δ : Int} {m : MonMap R} (h : KD δ m) {k : IVec} (hk : k.sum = δ) (v : R) :
    KD δ (MonMap.accum m k v) := by
  unfold MonMap.accum
  split <;> exact h.set hk _

theorem accum_ne_nil (m : MonMap R) (k : IVec) (v : R) : MonMap.accum m k v ≠ [] := by
  unfold MonMap.accum
  split <;> exact set_ne_nil _ _ _

theorem addVec_sum {a b c : IVec} (h : addVec a b = .ok c) : c.sum = a.sum + b.sum := by
  rw [addVec, Res.bind_eq_ok] at h
  obtain ⟨_, h1, h2⟩ := h
  have hl := of_decide_eq_true (check_eq_ok.1 h1)
  rw [← Except.ok.inj h2]
  clear h1 h2
  induction a generalizing b with
  | nil => rw [List.length_eq_zero_iff.1 hl.symm]; simp
  | cons x a ih =>
    cases b with
    | nil => simp at hl
    | cons y b =>
      rw [List.zipWith_cons_cons, List.sum_cons, List.sum_cons, List.sum_cons, ih (by simpa using hl)]
      ring

theorem mulMaps_KD {a b : Int} {H X r : MonMap R} (hH : KD a H) (hX : KD b X) (h : mulMaps H X = .ok r) :
    KD (b + a) r := by
  refine foldlM_keeps (KD (b + a)) H (fun e he => by simp at he) ?_ h
  intro acc eH acc' heH hacc h1
  refine foldlM_keeps (KD (b + a)) X hacc ?_ h1
  intro acc eX acc' heX hacc h2
  rw [Res.bind_eq_ok] at h2
  obtain ⟨mon, e, h2⟩ := h2
  rw [← Except.ok.inj h2]
  exact hacc.accum (by rw [addVec_sum e, hX eX heX, hH eH heH]) _

theorem mulMaps_ne_nil {H X r : MonMap R} (hH : H ≠ []) (hX : X ≠ []) (h : mulMaps H X = .ok r) : r ≠ [] := by
  obtain ⟨eH, H', rfl⟩ := List.exists_cons_of_ne_nil hH
  obtain ⟨eX, X', rfl⟩ := List.exists_cons_of_ne_nil hX
  have hin : ∀ (X : MonMap R) (eH : IVec × R) {s r : MonMap R}, s ≠ [] →
      X.foldlM (fun acc eX => do
        let mon ← addVec eX.1 eH.1
        pure (MonMap.accum acc mon (eX.2 * eH.2))) s = (.ok r : Res (MonMap R)) → r ≠ [] := by
    intro X eH s r hs h
    refine foldlM_keeps (fun m : MonMap R => m ≠ []) X hs ?_ h
    intro acc eX acc' _ _ h2
    rw [Res.bind_eq_ok] at h2
    obtain ⟨mon, e, h2⟩ := h2
    rw [← Except.ok.inj h2]
    exact accum_ne_nil _ _ _
  rw [mulMaps, List.foldlM_cons, Res.bind_eq_ok] at h
  obtain ⟨s, h1, h2⟩ := h
  refine foldlM_keeps (fun m : MonMap R => m ≠ []) H' ?_ (fun acc e acc' _ hacc h => hin _ e hacc h) h2
  rw [List.foldlM_cons, Res.bind_eq_ok] at h1
  obtain ⟨s', h3, h4⟩ := h1
  refine hin X' eH ?_ h4
  rw [Res.bind_eq_ok] at h3
  obtain ⟨mon, e, h3⟩ := h3
  rw [← Except.ok.inj h3]
  exact accum_ne_nil _ _ _

theorem rowForm_KD (n : Nat) (M : CMat R) (i : Nat) : KD 1 (rowForm n M i) ∧ (0 < n → rowForm n M i ≠ []) := by
  rw [rowForm]
  have key : ∀ (l : List Nat) (m : MonMap R), (∀ j ∈ l, j < n) → KD 1 m →
      KD 1 (l.foldl (fun m j => MonMap.set m (unitVec n j) (M.e i j)) m) ∧
      ((l ≠ [] ∨ m ≠ []) → l.foldl (fun m j => MonMap.set m (unitVec n j) (M.e i j)) m ≠ []) := by
    intro l
    induction l with
    | nil => intro m _ hm; exact ⟨hm, fun h => by simpa using h⟩
    | cons j l ih =>
      intro m hl hm
      rw [List.foldl_cons]
      have hj := hl j (by simp)
      have hs : (unitVec n j).sum = 1 := by
        rw [unitVec, List.sum_set']
        simp [hj]
      obtain ⟨h1, h2⟩ := ih (MonMap.set m (unitVec n j) (M.e i j)) (fun j h => hl j (List.mem_cons_of_mem _ h)) (hm.set hs _)
      exact ⟨h1, fun _ => h2 (Or.inr (set_ne_nil _ _ _))⟩
  obtain ⟨h1, h2⟩ := key (List.range n) [] (fun j hj => List.mem_range.1 hj) (fun e he => by simp at he)
  exact ⟨h1, fun hn => h2 (Or.inl (by simp; omega))⟩

theorem mulPow_KD {a : Int} {H X : MonMap R} (hH : KD a H) (hX : KD 1 X) (hne : H ≠ []) (hXne : X ≠ []) :
    ∀ (j : Nat) {r : MonMap R}, mulPow H X j = .ok r → KD (a + j) r ∧ r ≠ [] := by
  intro j
  induction j with
  | zero =>
    intro r h
    rw [← Except.ok.inj h]
    exact ⟨by simpa using hH, hne⟩
  | succ j ih =>
    intro r h
    rw [mulPow, Res.bind_eq_ok] at h
    obtain ⟨H', h1, h2⟩ := h
    obtain ⟨h3, h4⟩ := ih h1
    refine ⟨?_, mulMaps_ne_nil h4 hXne h2⟩
    have := mulMaps_KD h3 hX h2
    have e : a + ((j + 1 : Nat) : Int) = 1 + (a + j) := by push_cast; ring
    rw [e]; exact this

theorem substTerm_KD {n : Nat} (hn : 0 < n) (M : CMat R) {k : IVec} (hk : NonNeg k) (c : R) {r : MonMap R}
    (h : substTerm n M k c = .ok r) : KD k.sum r ∧ r ≠ [] := by
  rw [substTerm, Res.bind_eq_ok] at h
  obtain ⟨_, h0, h⟩ := h
  have hl := of_decide_eq_true (check_eq_ok.1 h0)
  have := forRange_keeps (fun i (m : MonMap R) => KD ((k.take i).sum) m ∧ m ≠ []) n ?_ ?_ h
  · rw [List.take_of_length_le (by omega)] at this
    exact this
  · refine ⟨?_, by simp⟩
    intro e he
    rw [List.mem_singleton.1 he]
    simp
  · intro i s s' hi hs h1
    obtain ⟨h2, h3⟩ := mulPow_KD hs.1 (rowForm_KD n M i).1 hs.2 ((rowForm_KD n M i).2 hn) _ h1
    refine ⟨?_, h3⟩
    have hnn := nonNeg_getD hk i
    rw [Int.toNat_of_nonneg hnn] at h2
    rw [List.take_succ, List.sum_append]
    have hx : k[i]? = some (k.getD i 0) := by
      rw [getD_getElem _ _ _ (by omega : i < k.length), List.getElem?_eq_getElem (by omega)]
    rw [hx]
    simpa using h2

theorem changeOfVariables_KD {n d : Nat} (hn : 0 < n) {f r : MonMap R} (hf : WFPoly n f) (hne : f ≠ [])
    (hdeg : ∀ e ∈ f, deg e.1 = d) {M : CMat R} (hM : M.rows = n) (h : changeOfVariables f M = .ok r) :
    (∀ e ∈ r, deg e.1 = d) ∧ r ≠ [] := by
  rw [changeOfVariables, Res.bind_eq_ok] at h
  obtain ⟨_, -, h⟩ := h
  rw [hM] at h
  have hfold : ∀ (H : MonMap R) (s : MonMap R), KD (d : Int) H → KD (d : Int) s →
      KD (d : Int) (H.foldl (fun result eH => MonMap.accum result eH.1 eH.2) s) ∧
      ((H ≠ [] ∨ s ≠ []) → H.foldl (fun result eH => MonMap.accum result eH.1 eH.2) s ≠ []) := by
    intro H
    induction H with
    | nil => intro s _ hs; exact ⟨hs, fun h => by simpa using h⟩
    | cons e H ih =>
      intro s hH hs
      rw [List.foldl_cons]
      obtain ⟨h1, h2⟩ := ih (MonMap.accum s e.1 e.2) (fun e h => hH e (List.mem_cons_of_mem _ h))
        (hs.accum (hH e (by simp)) _)
      exact ⟨h1, fun _ => h2 (Or.inr (accum_ne_nil _ _ _))⟩
  have hstep : ∀ (s : MonMap R) (e : IVec × R) (s' : MonMap R), e ∈ f → KD (d : Int) s →
      (do let H ← substTerm n M e.1 e.2
          pure (H.foldl (fun result eH => MonMap.accum result eH.1 eH.2) s) : Res (MonMap R)) = .ok s' →
      KD (d : Int) s' ∧ s' ≠ [] := by
    intro s e s' he hs h1
    rw [Res.bind_eq_ok] at h1
    obtain ⟨H, h2, h3⟩ := h1
    obtain ⟨h4, h5⟩ := substTerm_KD hn M (hf.1 e he).2 e.2 h2
    have hd : e.1.sum = d := hdeg e he
    rw [hd] at h4
    rw [← Except.ok.inj h3]
    exact ⟨(hfold H s h4 hs).1, (hfold H s h4 hs).2 (Or.inl h5)⟩
  refine ⟨foldlM_keeps (KD (d : Int)) f (fun e he => by simp at he) (fun s e s' he hs h => (hstep s e s' he hs h).1) h, ?_⟩
  obtain ⟨e, f', rfl⟩ := List.exists_cons_of_ne_nil hne
  rw [List.foldlM_cons, Res.bind_eq_ok] at h
  obtain ⟨s, h1, h2⟩ := h
  have h3 := hstep [] e s (by simp) (fun e he => by simp at he) h1
  exact (foldlM_keeps (fun m : MonMap R => KD (d : Int) m ∧ m ≠ []) f' h3
    (fun s e s' he hs h => hstep s e s' (List.mem_cons_of_mem _ he) hs.1 h) h2).2

end Verif
