import Verif.Lemmas.DeRhamSpec
import Verif.Lemmas.Poly
import Verif.Lemmas.Map
import Verif.Lemmas.Matrix

/-!
Facts about the tables of `de_Rham_local` and the matrices filled from them.
-/

namespace Verif

open Spec MvPolynomial

variable {R : Type} [CommRing R]

theorem getD_getElem {α : Type} (L : List α) (x : α) (k : Nat) (h : k < L.length) :
    L.getD k x = L[k] := by
  rw [List.getD_eq_getElem?_getD, List.getElem?_eq_getElem h, Option.getD_some]

namespace Spec.IsTable

variable {n : Nat} {l : Int} {L : List IVec}

theorem nodup (h : IsTable n l L) : L.Nodup := LexLt_pairwise_nodup h.1

theorem tuple (h : IsTable n l L) {k : Nat} (hk : k < L.length) : IsTuple (n + 1) l (L.getD k []) := by
  rw [getD_getElem L _ k hk]
  exact (h.2 _).1 (List.getElem_mem hk)

theorem look_getD (h : IsTable n l L) {k : Nat} (hk : k < L.length) :
    look (buildDict L) (L.getD k []) = .ok k := by
  rw [getD_getElem L _ k hk, look, find?_buildDict_of_nodup L h.nodup k hk]

theorem exists_index (h : IsTable n l L) {t : IVec} (ht : IsTuple (n + 1) l t) :
    ∃ k, k < L.length ∧ L.getD k [] = t ∧ look (buildDict L) t = .ok k := by
  obtain ⟨k, hk, e⟩ := List.getElem_of_mem ((h.2 t).2 ht)
  have e' : L.getD k [] = t := by rw [getD_getElem L _ k hk, e]
  exact ⟨k, hk, e', e' ▸ h.look_getD hk⟩

theorem getD_inj (h : IsTable n l L) {j k : Nat} (hj : j < L.length) (hk : k < L.length)
    (e : L.getD j [] = L.getD k []) : j = k := by
  have h1 := h.look_getD hj
  rw [e, h.look_getD hk] at h1
  cases h1; rfl

theorem eq {L' : List IVec} (h : IsTable n l L) (h' : IsTable n l L') : L = L' := by
  have hp : L.Perm L' := (List.perm_ext_iff_of_nodup h.nodup h'.nodup).2
    (fun t => (h.2 t).trans (h'.2 t).symm)
  exact List.Perm.eq_of_pairwise (fun a b _ _ h1 h2 => absurd (h1.trans h2) (LexLt.irrefl _)) h.1 h'.1 hp

end Spec.IsTable

omit [CommRing R] in
theorem DR.list_ok' {D : DR R} (hD : TabOK D) (l : Int) (h0 : 0 ≤ l) (h1 : l ≤ (D.n + 1) * D.d) :
    ∃ L, IsTable D.n l L ∧ D.list l = .ok L ∧ D.dict l = .ok (buildDict L) := by
  obtain ⟨L, h, e1, e2⟩ := hD.tables l.toNat (by zify; rw [Int.toNat_of_nonneg h0]; exact h1)
  rw [Int.toNat_of_nonneg h0] at h
  refine ⟨L, h, ?_, ?_⟩
  · rw [DR.list, iget, if_neg (by omega), aget, e1]
  · rw [DR.dict, iget, if_neg (by omega), aget, e2]

theorem DR.list_ok {D : DR R} (hD : DROk D) (l : Int) (h0 : 0 ≤ l) (h1 : l ≤ (D.n + 1) * D.d) :
    ∃ L, IsTable D.n l L ∧ D.list l = .ok L ∧ D.dict l = .ok (buildDict L) :=
  DR.list_ok' hD.toTabOK l h0 h1

/-! ### Exponent vectors -/

theorem ev_nonneg {n : Nat} {l : Int} {t : IVec} (h : IsTuple (n + 1) l t) (i : Fin (n + 1)) :
    0 ≤ ev n t i := nonNeg_getD h.2.1 i

theorem sum_ev {n : Nat} {t : IVec} (h : t.length = n + 1) : ∑ i, ev n t i = t.sum := by
  have : t = List.ofFn (fun i : Fin (n + 1) => ev n t i) := by
    apply List.ext_getElem
    · simp [h]
    · intro i h1 h2
      rw [List.getElem_ofFn]; simp [ev, h1]
  conv_rhs => rw [this, List.sum_ofFn]

theorem sum_ev_tuple {n : Nat} {l : Int} {t : IVec} (h : IsTuple (n + 1) l t) : ∑ i, ev n t i = l := by
  rw [sum_ev h.1]; exact h.2.2

theorem xpow_ev {n : Nat} {t : IVec} (h : NonNeg t) :
    xpow R (ev n t) = monomial (expo (n + 1) t) 1 := by
  rw [xpow_of_nonneg (a := ev n t) (fun i => nonNeg_getD h i)]
  rfl

theorem ev_add {n : Nat} {a b : IVec} (h : a.length = b.length) :
    ev n (List.zipWith (· + ·) a b) = ev n a + ev n b := by
  funext i
  exact getD_zipWith_add a b h i

theorem ev_inj {n : Nat} {a b : IVec} (ha : a.length = n + 1) (hb : b.length = n + 1)
    (h : ev n a = ev n b) : a = b := by
  apply List.ext_getElem (by omega)
  intro i h1 h2
  have := congrFun h ⟨i, by omega⟩
  simpa [ev, h1, h2] using this

theorem tuple_of_ev {n : Nat} {l : Int} {t : IVec} (h1 : t.length = n + 1) (h2 : ∀ i, 0 ≤ ev n t i)
    (h3 : ∑ i, ev n t i = l) : IsTuple (n + 1) l t := by
  refine ⟨h1, ?_, ?_⟩
  · intro x hx
    obtain ⟨k, hk, e⟩ := List.getElem_of_mem hx
    have := h2 ⟨k, by omega⟩
    simpa [ev, hk, e] using this
  · rw [deg, ← sum_ev h1]; exact h3

/-- Every function is the `ev` of a list. -/
theorem exists_ev {n : Nat} (a : Fin (n + 1) → ℤ) : ∃ t : IVec, t.length = n + 1 ∧ ev n t = a :=
  ⟨List.ofFn a, by simp, by
    funext i
    rw [ev, getD_getElem _ _ _ (by rw [List.length_ofFn]; exact i.isLt), List.getElem_ofFn]⟩

/-! ### Coordinates -/

theorem coeff_combo {n : Nat} {l : Int} {L : List IVec} (h : IsTable n l L) (G : Nat → R) {k : Nat}
    (hk : k < L.length) : coeff (expo (n + 1) (L.getD k [])) (combo n L G) = G k := by
  rw [combo, coeff_sum, Finset.sum_eq_single k]
  · rw [xpow_ev (h.tuple hk).2.1, coeff_smul, coeff_monomial, if_pos rfl, smul_eq_mul, mul_one]
  · intro j hj hne
    rw [Finset.mem_range] at hj
    rw [xpow_ev (h.tuple hj).2.1, coeff_smul, coeff_monomial, if_neg, smul_zero]
    intro e
    exact hne (h.getD_inj hj hk (expo_inj (h.tuple hj).1 (h.tuple hk).1 (h.tuple hj).2.1
      (h.tuple hk).2.1 e))
  · intro hn; exact absurd (Finset.mem_range.2 hk) hn

theorem combo_isHomogeneous {n : Nat} {l : Nat} {L : List IVec} (h : IsTable n l L) (G : Nat → R) :
    (combo n L G).IsHomogeneous l := by
  apply IsHomogeneous.sum
  intro k hk
  rw [Finset.mem_range] at hk
  rw [smul_eq_C_mul]
  have := (isHomogeneous_C (Fin (n + 1)) (G k)).mul
    (xpow_isHomogeneous (R := R) (ev n (L.getD k [])) l (sum_ev_tuple (h.tuple hk)))
  rwa [zero_add] at this

/-- A homogeneous polynomial is determined by its coordinates. -/
theorem combo_coeff {n : Nat} {l : Nat} {L : List IVec} (h : IsTable n l L)
    {P : MvPolynomial (Fin (n + 1)) R} (hP : P.IsHomogeneous l) :
    combo n L (fun k => coeff (expo (n + 1) (L.getD k [])) P) = P := by
  ext a
  by_cases ha : a.degree = l
  · obtain ⟨t, ht, e⟩ := exists_ev (fun i => ((a i : ℕ) : ℤ))
    have htup : IsTuple (n + 1) l t := tuple_of_ev ht (by rw [e]; intro i; positivity) (by
      rw [e, ← ha, Finsupp.degree_eq_sum]; push_cast; rfl)
    have hexp : expo (n + 1) t = a := by
      ext i
      have := congrFun e i
      simp only [ev] at this
      rw [expo_apply, this]; simp
    obtain ⟨k, hk, hkt, -⟩ := h.exists_index htup
    rw [← hexp, ← hkt, coeff_combo h _ hk]
  · rw [(combo_isHomogeneous h _).coeff_eq_zero ha, hP.coeff_eq_zero ha]

theorem combo_congr {n : Nat} {L : List IVec} {G G' : Nat → R} (h : ∀ k, k < L.length → G k = G' k) :
    combo n L G = combo n L G' :=
  Finset.sum_congr rfl (fun k hk => by rw [h k (Finset.mem_range.1 hk)])

theorem combo_add (n : Nat) (L : List IVec) (G H : Nat → R) :
    combo n L (fun i => G i + H i) = combo n L G + combo n L H := by
  simp only [combo, add_smul, Finset.sum_add_distrib]

theorem combo_single {n : Nat} {L : List IVec} {k : Nat} (hk : k < L.length) (c : R) :
    combo n L (fun i => if i = k then c else 0) = c • xpow R (ev n (L.getD k [])) := by
  rw [combo, Finset.sum_eq_single k]
  · simp
  · intro j _ hj; simp [hj]
  · intro h; exact absurd (Finset.mem_range.2 hk) h

/-! ### matrix_J -/

omit [CommRing R] in
theorem put_ok {M : CMat R} {i j : Nat} (hi : i < M.rows) (hj : j < M.cols) (x : R) :
    M.put i j x = .ok ⟨M.rows, M.cols, fun a b => if a = i ∧ b = j then x else M.e a b⟩ := by
  rw [CMat.put, if_pos ⟨hi, hj⟩]

/-- The coefficient of `x^s` in `x^t ∂_i f`, summed over the terms of `f`. -/
def jacCoeff (f : MonMap R) (i : Nat) (t s : IVec) : R :=
  (f.map (fun e => if 0 < e.1.getD i 0 ∧ List.zipWith (· + ·) (e.1.set i (e.1.getD i 0 - 1)) t = s
    then ((e.1.getD i 0 : Int) : R) * e.2 else 0)).sum

theorem coeff_jac {n : Nat} (f : MonMap R) (hf : ∀ e ∈ f, e.1.length = n + 1 ∧ NonNeg e.1)
    (i : Fin (n + 1)) {t s : IVec} (ht : t.length = n + 1) (ht' : NonNeg t) (hs : s.length = n + 1)
    (hs' : NonNeg s) :
    coeff (expo (n + 1) s) (xpow R (ev n t) * pderiv i (toPoly (n + 1) f)) = jacCoeff f i t s := by
  induction f with
  | nil => simp [toPoly, jacCoeff]
  | cons e f ih =>
    have he := hf e (by simp)
    rw [toPoly_cons, map_add, mul_add, coeff_add, ih (fun e h => hf e (by simp [h])), jacCoeff,
      jacCoeff, List.map_cons, List.sum_cons]
    congr 1
    rw [pderiv_monomial, xpow_ev ht', monomial_mul, one_mul, coeff_monomial]
    by_cases h0 : 0 < e.1.getD i 0
    · have hi : i.val < e.1.length := by rw [he.1]; exact i.isLt
      have hset : NonNeg (e.1.set i (e.1.getD i 0 - 1)) := nonNeg_set he.2 _ (by omega)
      have e1 : expo (n + 1) t + (expo (n + 1) e.1 - Finsupp.single i 1)
          = expo (n + 1) (List.zipWith (· + ·) (e.1.set i (e.1.getD i 0 - 1)) t) := by
        rw [expo_add _ _ _ (by rw [List.length_set, he.1, ht]) hset ht', add_comm (expo (n + 1) t)]
        congr 1
        ext j
        rw [Finsupp.tsub_apply, expo_apply, expo_apply, getD_set _ _ _ _ hi]
        by_cases hj : j = i
        · subst hj; simp
        · have hj' : ¬ (j.val = i.val) := fun h => hj (Fin.ext h)
          simp [hj', Ne.symm hj]
      rw [e1]
      by_cases h1 : List.zipWith (· + ·) (e.1.set i (e.1.getD i 0 - 1)) t = s
      · rw [if_pos (by rw [h1]), if_pos ⟨h0, h1⟩, expo_apply, mul_comm]
        congr 1
        rw [← Int.cast_natCast, Int.toNat_of_nonneg (by omega)]
      · rw [if_neg, if_neg (by tauto)]
        intro e2
        exact h1 (expo_inj (by simp [he.1, ht]) hs (nonNeg_add hset ht') hs' e2)
    · rw [if_neg (show ¬ (0 < e.1.getD i 0 ∧ _) from fun h => h0 h.1)]
      have : e.1.getD i 0 = 0 := by have := nonNeg_getD he.2 i; omega
      rw [expo_apply, this]
      simp

theorem jacCoeff_append (f : MonMap R) (e : IVec × R) (i : Nat) (t s : IVec) :
    jacCoeff (f ++ [e]) i t s = jacCoeff f i t s
      + (if 0 < e.1.getD i 0 ∧ List.zipWith (· + ·) (e.1.set i (e.1.getD i 0 - 1)) t = s
        then ((e.1.getD i 0 : Int) : R) * e.2 else 0) := by
  simp [jacCoeff]

theorem zipWith_add_cancel {a b t : IVec} (ha : a.length = t.length) (hb : b.length = t.length)
    (h : List.zipWith (· + ·) a t = List.zipWith (· + ·) b t) : a = b := by
  apply List.ext_getElem (by omega)
  intro i h1 h2
  have := congrArg (fun l => l.getD i 0) h
  rw [getD_zipWith_add _ _ ha, getD_zipWith_add _ _ hb, getD_getElem _ _ _ h1, getD_getElem _ _ _ h2]
    at this
  omega

theorem set_getD_cancel {a b : IVec} (i : Nat) (hl : a.length = b.length) (hi : i < a.length)
    (h : a.set i (a.getD i 0 - 1) = b.set i (b.getD i 0 - 1)) : a = b := by
  apply List.ext_getElem hl
  intro j h1 h2
  have := congrArg (fun l => l.getD j 0) h
  rw [getD_set _ _ _ _ hi, getD_set _ _ _ _ (by omega)] at this
  by_cases hj : j = i
  · subst hj
    rw [if_pos rfl, if_pos rfl, getD_getElem _ _ _ h1, getD_getElem _ _ _ h2] at this
    omega
  · rwa [if_neg hj, if_neg hj, getD_getElem _ _ _ h1, getD_getElem _ _ _ h2] at this

/-- One column of `matrix_J`. -/
theorem matrixJCol_ok {n : Nat} {d : Nat} (f : MonMap R) (hf : WFPoly (n + 1) f)
    (hh : ∀ e ∈ f, deg e.1 = d) {l : Int} {L : List IVec} (hL : IsTable n l L) {t : IVec}
    (ht : IsTuple (n + 1) (l - (d - 1)) t) (i : Nat) (hi : i < n + 1) (col : Nat) (M : CMat R)
    (hr : M.rows = L.length) (hc : col < M.cols) (h0 : ∀ r, M.e r col = 0) :
    ∃ M', matrixJCol f (buildDict L) t i col M = .ok M' ∧ M'.rows = M.rows ∧ M'.cols = M.cols ∧
      (∀ r c, c ≠ col → M'.e r c = M.e r c) ∧
      ∀ r, r < L.length → M'.e r col = jacCoeff f i t (L.getD r []) := by
  suffices H : ∀ (pre post : MonMap R), f = pre ++ post → ∀ M : CMat R, M.rows = L.length →
      col < M.cols → (∀ r, r < L.length → M.e r col = jacCoeff pre i t (L.getD r [])) →
      ∃ M', matrixJCol post (buildDict L) t i col M = .ok M' ∧ M'.rows = M.rows ∧ M'.cols = M.cols ∧
      (∀ r c, c ≠ col → M'.e r c = M.e r c) ∧
      ∀ r, r < L.length → M'.e r col = jacCoeff f i t (L.getD r []) from
    H [] f rfl M hr hc (fun r _ => by rw [h0]; simp [jacCoeff])
  intro pre post
  induction post generalizing pre with
  | nil =>
    intro hp M h1 h2 h3
    rw [List.append_nil] at hp
    exact ⟨M, rfl, rfl, rfl, fun _ _ _ => rfl, by rw [hp]; exact h3⟩
  | cons e post ih =>
    intro hp M h1 h2 h3
    have hmem : e ∈ f := by rw [hp]; simp
    have he := hf.1 e hmem
    have hp' : f = (pre ++ [e]) ++ post := by rw [hp]; simp
    unfold matrixJCol
    rw [List.foldlM_cons]
    by_cases h0 : 0 < e.1.getD i 0
    · have hil : i < e.1.length := by omega
      have hx : e.1[i]? = some (e.1.getD i 0) := by
        rw [getD_getElem _ _ _ hil, List.getElem?_eq_getElem hil]
      have hset : NonNeg (e.1.set i (e.1.getD i 0 - 1)) := nonNeg_set he.2 _ (by omega)
      have hlen : (e.1.set i (e.1.getD i 0 - 1)).length = t.length := by
        rw [List.length_set, he.1, ht.1]
      have htup : IsTuple (n + 1) l (List.zipWith (· + ·) (e.1.set i (e.1.getD i 0 - 1)) t) := by
        refine tuple_of_ev (by simp [he.1, ht.1]) ?_ ?_
        · intro j; exact nonNeg_getD (nonNeg_add hset ht.2.1) j
        · rw [ev_add hlen, Finset.sum_congr rfl (fun j _ => Pi.add_apply _ _ j),
            Finset.sum_add_distrib, sum_ev_tuple ht, sum_ev (by rw [List.length_set, he.1])]
          have e1 : (e.1.set i (e.1.getD i 0 - 1)).sum = e.1.sum - 1 := by
            rw [← sum_ev (n := n) (by rw [List.length_set, he.1]), ← sum_ev (n := n) he.1]
            have : ∀ j : Fin (n + 1), ev n (e.1.set i (e.1.getD i 0 - 1)) j
                = ev n e.1 j - if j = ⟨i, hi⟩ then 1 else 0 := by
              intro j
              rw [ev, getD_set _ _ _ _ hil, ev]
              by_cases hj : j.val = i
              · rw [if_pos hj, if_pos (Fin.ext hj), hj]
              · rw [if_neg hj, if_neg (fun h => hj (by rw [h])), sub_zero]
            rw [Finset.sum_congr rfl (fun j _ => this j), Finset.sum_sub_distrib]
            simp
          have := hh e hmem
          rw [deg] at this
          rw [e1, this]; omega
      obtain ⟨row, hrow, hrt, hlook⟩ := hL.exists_index htup
      have hstep : (if 0 < e.1.getD i 0 then do
          let df ← diffVec e.1 i
          let mon ← addVec df t
          let row ← look (buildDict L) mon
          M.put row col ((e.1.getD i 0 : Int) * e.2)
        else .ok M) = .ok ⟨M.rows, M.cols, fun a b => if a = row ∧ b = col then
            ((e.1.getD i 0 : Int) : R) * e.2 else M.e a b⟩ := by
        rw [if_pos h0, diffVec, hx]
        simp only [decide_eq_true h0, check_true, Res.bind_ok, Res.pure_eq, addVec, hlen, decide_true,
          hlook, put_ok (show row < M.rows by omega) h2]
      rw [hstep, Res.bind_ok]
      obtain ⟨M', e1, e2, e3, e4, e5⟩ := ih (pre ++ [e]) hp'
        ⟨M.rows, M.cols, fun a b => if a = row ∧ b = col then
            ((e.1.getD i 0 : Int) : R) * e.2 else M.e a b⟩ h1 h2 (by
        intro r hr
        rw [jacCoeff_append]
        simp only [and_true]
        by_cases hrr : r = row
        · subst hrr
          rw [if_pos rfl, if_pos ⟨h0, hrt.symm⟩]
          have : jacCoeff pre i t (L.getD r []) = 0 := by
            apply List.sum_eq_zero
            intro x hx
            rw [List.mem_map] at hx
            obtain ⟨e', he', rfl⟩ := hx
            have hm' : e' ∈ f := by rw [hp]; simp [he']
            have hl' := (hf.1 e' hm').1
            rw [if_neg]
            rintro ⟨-, h'⟩
            rw [hrt] at h'
            have h2 := zipWith_add_cancel (by rw [List.length_set, hl', ht.1]) hlen h'
            have h3 := set_getD_cancel i (by rw [hl', he.1]) (by omega) h2
            have hnd := LexLt_pairwise_nodup hf.2
            rw [hp, List.map_append, List.map_cons, List.nodup_append] at hnd
            exact hnd.2.2 _ (List.mem_map_of_mem he') _ (by simp) h3
          rw [this, zero_add]
        · rw [if_neg hrr, if_neg, add_zero, h3 r hr]
          rintro ⟨-, h'⟩
          rw [← hrt] at h'
          exact hrr (hL.getD_inj hr hrow h'.symm))
      refine ⟨M', e1, e2, e3, ?_, e5⟩
      intro r c hcc
      rw [e4 r c hcc]
      exact if_neg (fun h => hcc h.2)
    · rw [if_neg h0, Res.bind_ok]
      exact ih (pre ++ [e]) hp' M h1 h2 (by
        intro r hr
        rw [jacCoeff_append, if_neg (by tauto), add_zero, h3 r hr])

theorem matrixJ_small {D : DR R} (hD : DROk D) (l : Int) (h0 : 0 ≤ l) (h1 : l < (D.d : Int) - 1) :
    ∃ L, IsTable D.n l L ∧ D.list l = .ok L ∧
      matrixJ D l = .ok (CMat.mk' L.length 0 (fun _ _ => 0)) := by
  have hd := hD.hd
  have : ((D.n : Int) + 1) * D.d ≥ D.d := by nlinarith
  obtain ⟨L, hL, e, -⟩ := D.list_ok hD l h0 (by omega)
  refine ⟨L, hL, e, ?_⟩
  rw [matrixJ, if_pos h1, e]
  rfl

theorem matrixJ_ok' {D : DR R} (hD : TabOK D) (hd : 1 ≤ D.d) (l : Int) (h0 : (D.d : Int) - 1 ≤ l)
    (h1 : l ≤ (D.n + 1) * D.d) :
    ∃ L S T, IsTable D.n l L ∧ IsTable D.n (l - (D.d - 1)) S ∧ D.list l = .ok L ∧
      D.list (l - (D.d - 1)) = .ok S ∧ matrixJ D l = .ok T ∧ T.rows = L.length ∧
      T.cols = (D.n + 1) * S.length ∧
      ∀ r i j, r < L.length → i < D.n + 1 → j < S.length →
        T.e r (i * S.length + j) = jacCoeff D.f i (S.getD j []) (L.getD r []) := by
  obtain ⟨L, hL, e, ed⟩ := D.list_ok' hD l (by omega) h1
  obtain ⟨S, hS, e', -⟩ := D.list_ok' hD (l - (D.d - 1)) (by omega) (by omega)
  have key : ∃ T, forRange (D.n + 1) (CMat.mk' L.length ((D.n + 1) * S.length) (fun _ _ => (0 : R)))
      (fun i M => forRange S.length M (fun j M =>
        matrixJCol D.f (buildDict L) (S.getD j []) i (i * S.length + j) M)) = .ok T ∧
      (T.rows = L.length ∧ T.cols = (D.n + 1) * S.length ∧
      (∀ r c, (D.n + 1) * S.length ≤ c → T.e r c = 0) ∧
      ∀ r i j, r < L.length → i < D.n + 1 → j < S.length →
        i * S.length + j < (D.n + 1) * S.length →
        T.e r (i * S.length + j) = jacCoeff D.f i (S.getD j []) (L.getD r [])) := by
    refine forRange_inv (fun i' (T : CMat R) => T.rows = L.length ∧ T.cols = (D.n + 1) * S.length ∧
      (∀ r c, i' * S.length ≤ c → T.e r c = 0) ∧
      ∀ r i j, r < L.length → i < D.n + 1 → j < S.length → i * S.length + j < i' * S.length →
        T.e r (i * S.length + j) = jacCoeff D.f i (S.getD j []) (L.getD r [])) ?_ ?_
    · refine ⟨rfl, rfl, fun r c _ => ?_, fun r i j _ _ _ h => by omega⟩
      simp only [CMat.mk']
      split <;> rfl
    · rintro i' M hi' ⟨m1, m2, m3, m4⟩
      have := forRange_inv (n := S.length) (s := M) (f := fun j M =>
        matrixJCol D.f (buildDict L) (S.getD j []) i' (i' * S.length + j) M)
        (fun j' (T : CMat R) => T.rows = L.length ∧ T.cols = (D.n + 1) * S.length ∧
        (∀ r c, i' * S.length + j' ≤ c → T.e r c = 0) ∧
        ∀ r i j, r < L.length → i < D.n + 1 → j < S.length →
          i * S.length + j < i' * S.length + j' →
          T.e r (i * S.length + j) = jacCoeff D.f i (S.getD j []) (L.getD r []))
        ⟨m1, m2, m3, m4⟩ ?_
      · simpa only [Nat.succ_mul] using this
      · rintro j' M hj' ⟨m1, m2, m3, m4⟩
        have hcol := rowMajor_lt hi' hj'
        obtain ⟨M', a1, a2, a3, a4, a5⟩ := matrixJCol_ok D.f hD.f_wf hD.f_hom hL
          (hS.tuple hj') i' hi' (i' * S.length + j') M m1 (by rw [m2]; exact hcol)
          (fun r => m3 r _ (le_refl _))
        refine ⟨M', a1, by omega, by omega, ?_, ?_⟩
        · intro r c hc
          rw [a4 r c (by omega), m3 r c (by omega)]
        · intro r i j hr hi hj hlt
          by_cases hcc : i * S.length + j = i' * S.length + j'
          · obtain ⟨rfl, rfl⟩ := rowMajor_inj hj hj' hcc
            exact a5 r hr
          · rw [a4 r _ hcc, m4 r i j hr hi hj (by omega)]
  obtain ⟨T, eT, t1, t2, -, t3⟩ := key
  refine ⟨L, S, T, hL, hS, e, e', ?_, t1, t2, fun r i j hr hi hj => t3 r i j hr hi hj
    (rowMajor_lt hi hj)⟩
  rw [matrixJ, if_neg (by omega), e, e', ed]
  exact eT

theorem matrixJ_ok {D : DR R} (hD : DROk D) (l : Int) (h0 : (D.d : Int) - 1 ≤ l)
    (h1 : l ≤ (D.n + 1) * D.d) :
    ∃ L S T, IsTable D.n l L ∧ IsTable D.n (l - (D.d - 1)) S ∧ D.list l = .ok L ∧
      D.list (l - (D.d - 1)) = .ok S ∧ matrixJ D l = .ok T ∧ T.rows = L.length ∧
      T.cols = (D.n + 1) * S.length ∧
      ∀ r i j, r < L.length → i < D.n + 1 → j < S.length →
        T.e r (i * S.length + j) = jacCoeff D.f i (S.getD j []) (L.getD r []) :=
  matrixJ_ok' hD.toTabOK (by have := hD.hd; omega) l h0 h1

theorem sum_blocks {M : Type} [AddCommMonoid M] (m l : Nat) (f : Nat → M) :
    ∑ i ∈ Finset.range m, ∑ s ∈ Finset.range l, f (i * l + s) = ∑ j ∈ Finset.range (m * l), f j := by
  induction m with
  | zero => simp
  | succ m ih => rw [Finset.sum_range_succ, ih, Nat.succ_mul, Finset.sum_range_add]

/-! ### Decomposition given by a solution -/

/-- What a solution `(B, U)` of the system says about polynomials: every monomial of degree `l` is a
combination of the `x^s g_i` and of the monomials listed by `B`. -/
theorem solves_decomp {n : Nat} {l : Nat} {L S : List IVec} (hL : IsTable n l L)
    (g : Fin (n + 1) → MvPolynomial (Fin (n + 1)) R) {T : CMat R}
    (hTr : T.rows = L.length) (hTc : T.cols = (n + 1) * S.length)
    (hg : ∀ i j, j < S.length → (xpow R (ev n (S.getD j [])) * g i).IsHomogeneous l)
    (hT : ∀ r (i : Fin (n + 1)) j, r < L.length → j < S.length →
      T.e r (i.val * S.length + j)
        = coeff (expo (n + 1) (L.getD r [])) (xpow R (ev n (S.getD j [])) * g i))
    {B : List Nat} {U : CMat R} (hU : Solves T B U) {k : Nat} (hk : k < L.length) :
    xpow R (ev n (L.getD k []))
      = ∑ i : Fin (n + 1), combo n S (fun s => U.e (i.val * S.length + s) k) * g i
        + ∑ b ∈ Finset.range B.length, U.e ((n + 1) * S.length + b) k •
            xpow R (ev n (L.getD (B.getD b 0) [])) := by
  have hB : ∀ b, b < B.length → B.getD b 0 < L.length := by
    intro b hb
    rw [getD_getElem _ _ _ hb, ← hTr]
    exact hU.lt _ (List.getElem_mem hb)
  -- compare coordinates
  have hhom : (∑ i : Fin (n + 1), combo n S (fun s => U.e (i.val * S.length + s) k) * g i
        + ∑ b ∈ Finset.range B.length, U.e ((n + 1) * S.length + b) k •
            xpow R (ev n (L.getD (B.getD b 0) []))).IsHomogeneous l := by
    apply IsHomogeneous.add
    · apply IsHomogeneous.sum
      intro i _
      rw [combo, Finset.sum_mul]
      apply IsHomogeneous.sum
      intro s hs
      rw [smul_mul_assoc, smul_eq_C_mul]
      have := (isHomogeneous_C (Fin (n + 1)) (U.e (i.val * S.length + s) k)).mul
        (hg i s (Finset.mem_range.1 hs))
      rwa [zero_add] at this
    · apply IsHomogeneous.sum
      intro b hb
      rw [smul_eq_C_mul]
      have := (isHomogeneous_C (Fin (n + 1)) (U.e ((n + 1) * S.length + b) k)).mul
        (xpow_isHomogeneous (R := R) (ev n (L.getD (B.getD b 0) [])) l
          (sum_ev_tuple (hL.tuple (hB b (Finset.mem_range.1 hb)))))
      rwa [zero_add] at this
  rw [← combo_coeff hL hhom, ← combo_coeff hL
    (xpow_isHomogeneous (R := R) (ev n (L.getD k [])) l (sum_ev_tuple (hL.tuple hk)))]
  apply combo_congr
  intro r hr
  have hmul := congrFun (congrFun hU.eq ⟨r, by omega⟩) ⟨k, by omega⟩
  rw [Matrix.mul_apply, Matrix.one_apply, Fin.sum_univ_add] at hmul
  have e1 : ∀ j : Fin T.cols, augment (toMat T T.rows T.cols) B ⟨r, by omega⟩ (Fin.castAdd B.length j)
      = T.e r j := by
    intro j
    simp [augment, toMat]
  have e2 : ∀ b : Fin B.length, augment (toMat T T.rows T.cols) B ⟨r, by omega⟩ (Fin.natAdd T.cols b)
      = if r = B.getD b 0 then 1 else 0 := by
    intro b
    simp [augment]
  simp only [e1, e2, toMat, Fin.val_castAdd, Fin.val_natAdd, Fin.mk.injEq] at hmul
  rw [coeff_add, coeff_sum, coeff_sum, xpow_ev (hL.tuple hk).2.1, coeff_monomial]
  have hl : (if expo (n + 1) (L.getD k []) = expo (n + 1) (L.getD r []) then (1 : R) else 0)
      = if r = k then 1 else 0 := by
    by_cases h : r = k
    · subst h; simp
    · rw [if_neg h, if_neg]
      intro h'
      exact h (hL.getD_inj hr hk (expo_inj (hL.tuple hk).1 (hL.tuple hr).1 (hL.tuple hk).2.1
        (hL.tuple hr).2.1 h').symm)
  rw [hl, ← hmul]
  congr 1
  · -- the columns
    have e3 : ∀ i : Fin (n + 1), coeff (expo (n + 1) (L.getD r []))
        (combo n S (fun s => U.e (i.val * S.length + s) k) * g i)
        = ∑ s ∈ Finset.range S.length, T.e r (i.val * S.length + s) * U.e (i.val * S.length + s) k := by
      intro i
      rw [combo, Finset.sum_mul, coeff_sum]
      refine Finset.sum_congr rfl (fun s hs => ?_)
      rw [smul_mul_assoc, coeff_smul, smul_eq_mul, mul_comm, ← hT r i s hr (Finset.mem_range.1 hs)]
    rw [Finset.sum_congr rfl (fun i _ => e3 i), ← Finset.sum_range (fun j => T.e r j * U.e j k), hTc]
    rw [← Finset.sum_range (fun i => ∑ s ∈ Finset.range S.length,
      T.e r (i * S.length + s) * U.e (i * S.length + s) k)]
    exact (sum_blocks (n + 1) S.length (fun j => T.e r j * U.e j k)).symm
  · rw [← Finset.sum_range (fun b => (if r = B.getD b 0 then (1 : R) else 0) * U.e (T.cols + b) k)]
    refine Finset.sum_congr rfl (fun b hb => ?_)
    have hbl := hB b (Finset.mem_range.1 hb)
    rw [coeff_smul, smul_eq_mul, xpow_ev (hL.tuple hbl).2.1, coeff_monomial, mul_comm, hTc]
    congr 1
    by_cases h : r = B.getD b 0
    · rw [if_pos h, if_pos (by rw [← h])]
    · rw [if_neg h, if_neg]
      intro h'
      exact h (hL.getD_inj hr hbl (expo_inj (hL.tuple hbl).1 (hL.tuple hr).1 (hL.tuple hbl).2.1
        (hL.tuple hr).2.1 h').symm)

theorem Spec.IsTable.idx {n : Nat} {l : Int} {L : List IVec} (h : IsTable n l L) {t : IVec}
    (ht : IsTuple (n + 1) l t) :
    L.idxOf t < L.length ∧ L.getD (L.idxOf t) [] = t ∧ look (buildDict L) t = .ok (L.idxOf t) := by
  have hm := (h.2 t).2 ht
  have h1 := List.idxOf_lt_length_iff.2 hm
  have h2 : L.getD (L.idxOf t) [] = t := by
    rw [getD_getElem _ _ _ h1]; exact List.getElem_idxOf h1
  refine ⟨h1, h2, ?_⟩
  have := h.look_getD h1
  rwa [h2] at this

theorem forRange_add {M : Type} [AddCommMonoid M] (m : Nat) (a : M) (c : Nat → M)
    (body : Nat → M → Res M) (h : ∀ i x, i < m → body i x = .ok (x + c i)) :
    forRange m a body = .ok (a + ∑ i ∈ Finset.range m, c i) := by
  induction m with
  | zero => simp [forRange]
  | succ m ih =>
    rw [forRange, ih (fun i x hi => h i x (by omega)), Res.bind_ok, h m _ (by omega),
      Finset.sum_range_succ, add_assoc]

theorem forRange_add₂ {M : Type} [AddCommMonoid M] (m l : Nat) (a : M) (c : Nat → Nat → M)
    (body : Nat → Nat → M → Res M)
    (h : ∀ i s x, i < m → s < l → body i s x = .ok (x + c i s)) :
    forRange m a (fun i x => forRange l x (body i))
      = .ok (a + ∑ i ∈ Finset.range m, ∑ s ∈ Finset.range l, c i s) :=
  forRange_add m a _ _ (fun i x hi => forRange_add l x _ _ (fun s y hs => h i s y hi hs))

theorem decAll_some {n : Nat} {w : IVec} (hl : w.length = n + 1) (h : ∀ i, 1 ≤ ev n w i) :
    ∃ w', decAll w = some w' ∧ w'.length = n + 1 ∧ ∀ i, ev n w' i = ev n w i - 1 := by
  refine ⟨w.map (· - 1), ?_, by simp [hl], ?_⟩
  · rw [decAll, if_pos]
    rw [List.all_eq_true]
    intro x hx
    obtain ⟨k, hk, e⟩ := List.getElem_of_mem hx
    have := h ⟨k, by omega⟩
    simp only [ev, getD_getElem _ _ _ hk, e] at this
    simpa using (show 0 < x by omega)
  · intro i
    have hi : i.val < w.length := by rw [hl]; exact i.isLt
    simp only [ev]
    rw [getD_getElem _ _ _ hi, getD_getElem _ _ _ (by simpa using hi), List.getElem_map]

theorem decAll_none {n : Nat} {w : IVec} (hl : w.length = n + 1) (i : Fin (n + 1)) (h : ev n w i ≤ 0) :
    decAll w = none := by
  rw [decAll, if_neg]
  rw [List.all_eq_true]
  intro h'
  have hi : i.val < w.length := by rw [hl]; exact i.isLt
  have := h' w[i.val] (List.getElem_mem hi)
  simp only [ev, getD_getElem _ _ _ hi] at h
  simp only [decide_eq_true_eq] at this
  omega

theorem oneMinusE_ev {n : Nat} (i : Nat) (hi : i < n + 1) (j : Fin (n + 1)) :
    ev n (oneMinusE n i) j = if j.val = i then 0 else 1 := by
  rw [ev, oneMinusE, getD_set _ _ _ _ (by simpa using hi)]
  split
  · rfl
  · rw [getD_getElem _ _ _ (by simpa using j.isLt)]; simp

omit [CommRing R] in
theorem at_ok {M : CMat R} {i j : Nat} (hi : i < M.rows) (hj : j < M.cols) :
    M.at i j = .ok (M.e i j) := by rw [CMat.at, if_pos ⟨hi, hj⟩]

/-- The contribution of `F_i`, monomial `s`, to entry `row` of matrix `m` in a column. -/
def redTerm (listG listF : List IVec) (n : Nat) (F : Nat → R) (i s : Nat) : Nat → Nat → R :=
  fun m row =>
    if row = listG.idxOf (List.zipWith (· + ·) (listF.getD s []) (oneMinusE n i)) then
      (if m = 0 then (((listF.getD s []).getD i 0 : Int) : R) * F (i * listF.length + s) else 0)
        + (if m = i + 1 then F (i * listF.length + s) else 0)
    else 0

/-- A column of the reduction matrices. -/
theorem redColJ_ok {D : DR R} {top : CMat R} {listG listF listW : List IVec}
    (hG : IsTable D.n ((D.d : Int) * D.n - D.n) listG)
    (hF : IsTable D.n ((D.d : Int) * D.n - 2 * D.n) listF)
    (hW : IsTable D.n ((D.d : Int) * D.n - D.n + D.d - (D.n + 1)) listW)
    (htr : top.rows = (D.n + 1) * listF.length) (htc : top.cols = listW.length)
    {v : IVec} (hv : IsTuple (D.n + 1) D.d v) {k : Nat} (hk : k < listG.length) :
    ((∃ i, ev D.n (listG.getD k []) i + ev D.n v i ≤ 0) ∧
      redColJ D top listG listF (buildDict listG) (buildDict listW) v k = .ok 0) ∨
    ∃ cw, cw < listW.length ∧
      (∀ i, ev D.n (listW.getD cw []) i = ev D.n (listG.getD k []) i + ev D.n v i - 1) ∧
      redColJ D top listG listF (buildDict listG) (buildDict listW) v k
        = .ok (∑ i ∈ Finset.range (D.n + 1), ∑ s ∈ Finset.range listF.length,
            redTerm listG listF D.n (fun x => top.e x cw) i s) := by
  have ht := hG.tuple hk
  have hlen : (listG.getD k []).length = v.length := by rw [ht.1, hv.1]
  have hadd : addVec (listG.getD k []) v = .ok (List.zipWith (· + ·) (listG.getD k []) v) := by
    rw [addVec, decide_eq_true hlen]; rfl
  have hwl : (List.zipWith (· + ·) (listG.getD k []) v).length = D.n + 1 := by
    rw [List.length_zipWith, ht.1, hv.1, min_self]
  by_cases hpos : ∀ i, 1 ≤ ev D.n (listG.getD k []) i + ev D.n v i
  · right
    obtain ⟨w, hdec, hw1, hw2⟩ := decAll_some (n := D.n) hwl (by rw [ev_add hlen]; exact hpos)
    simp only [ev_add hlen, Pi.add_apply] at hw2
    have hwt : IsTuple (D.n + 1) ((D.d : Int) * D.n - D.n + D.d - (D.n + 1)) w := by
      refine tuple_of_ev hw1 (fun i => ?_) ?_
      · rw [hw2]; have := hpos i; omega
      · rw [Finset.sum_congr rfl (fun i _ => hw2 i), Finset.sum_sub_distrib, Finset.sum_add_distrib,
          sum_ev_tuple ht, sum_ev_tuple hv]
        simp
    obtain ⟨i1, i2, i3⟩ := hW.idx hwt
    refine ⟨listW.idxOf w, i1, by rw [i2]; exact hw2, ?_⟩
    have hs : sumVec w = (D.d : Int) * D.n - 2 * D.n + D.d - 1 := by
      rw [sumVec_eq_sum]
      have := hwt.2.2
      rw [deg] at this
      rw [this]; ring
    rw [redColJ, hadd, Res.bind_ok]
    simp only [hdec, hs, decide_true, check_true, Res.bind_ok, i3]
    have := forRange_add₂ (M := Nat → Nat → R) (D.n + 1) listF.length 0
      (redTerm listG listF D.n (fun x => top.e x (listW.idxOf w)))
      (fun i s acc => do
          let t ← addVec (listF.getD s []) (oneMinusE D.n i)
          let row ← look (buildDict listG) t
          let F ← top.at (i * listF.length + s) (listW.idxOf w)
          let acc := accAt acc 0 row ((((listF.getD s []).getD i 0 : Int) : R) * F)
          pure (accAt acc (i + 1) row F)) ?_
    · rw [zero_add] at this
      exact this
    · intro i s acc hi hs
      have hst := hF.tuple hs
      have hol : (oneMinusE D.n i).length = D.n + 1 := by simp [oneMinusE]
      have hl2 : (listF.getD s []).length = (oneMinusE D.n i).length := by rw [hst.1, hol]
      have hrt : IsTuple (D.n + 1) ((D.d : Int) * D.n - D.n)
          (List.zipWith (· + ·) (listF.getD s []) (oneMinusE D.n i)) := by
        refine tuple_of_ev (by rw [List.length_zipWith, hst.1, hol, min_self]) (fun j => ?_) ?_
        · rw [ev_add hl2, Pi.add_apply, oneMinusE_ev i hi]
          have := ev_nonneg hst j
          split <;> omega
        · rw [ev_add hl2, Finset.sum_congr rfl (fun j _ => Pi.add_apply _ _ j),
            Finset.sum_add_distrib, sum_ev_tuple hst]
          have : ∑ j, ev D.n (oneMinusE D.n i) j = D.n := by
            rw [Finset.sum_congr rfl (fun j _ => oneMinusE_ev i hi j)]
            have h2 : ∀ j : Fin (D.n + 1), (if j.val = i then (0 : ℤ) else 1)
                = 1 - if j = ⟨i, hi⟩ then 1 else 0 := by
              intro j
              by_cases h : j.val = i
              · rw [if_pos h, if_pos (Fin.ext h)]; rfl
              · rw [if_neg h, if_neg (fun h' => h (by rw [h']))]; rfl
            rw [Finset.sum_congr rfl (fun j _ => h2 j), Finset.sum_sub_distrib]
            simp
          rw [this]; ring
      obtain ⟨r1, r2, r3⟩ := hG.idx hrt
      rw [addVec, decide_eq_true hl2]
      simp only [check_true, Res.bind_ok, Res.pure_eq, r3]
      rw [at_ok (by rw [htr]; exact rowMajor_lt hi hs) (by rw [htc]; exact i1), Res.bind_ok]
      congr 1
      funext m row
      simp only [accAt, redTerm, Pi.add_apply]
      by_cases hrow : row = listG.idxOf (List.zipWith (· + ·) (listF.getD s []) (oneMinusE D.n i))
      · simp only [hrow, and_true, if_true]
        by_cases hm0 : m = 0
        · subst hm0; simp
        · by_cases hm1 : m = i + 1
          · subst hm1; simp
          · simp [hm0, hm1]
      · simp only [hrow, and_false, if_false, add_zero]
  · left
    push Not at hpos
    obtain ⟨i, hi⟩ := hpos
    refine ⟨⟨i, by omega⟩, ?_⟩
    have hdec := decAll_none (n := D.n) hwl i (by rw [ev_add hlen, Pi.add_apply]; omega)
    rw [redColJ, hadd, Res.bind_ok]
    simp only [hdec]
    rfl

end Verif
