import Verif.Lemmas.InitSucceeds
import Verif.Lemmas.NDMatrix

/-!
The matrices of `matrix_J` and `matrix_ND`, and with them the constructors, depend on the polynomial only and not on the terms
with coefficient zero its map holds.
-/

namespace Verif

open Spec MvPolynomial

variable {R : Type} [CommRing R]

/-- Nothing is stored outside the matrix. -/
def CMat.Inside (M : CMat R) : Prop := ∀ r c, ¬ (r < M.rows ∧ c < M.cols) → M.e r c = 0

theorem put_inside {M M' : CMat R} (hM : M.Inside) {i j : ℕ} {x : R} (h : M.put i j x = .ok M') : M'.Inside := by
  rw [CMat.put] at h
  split at h
  · rename_i hij
    obtain rfl := Except.ok.inj h
    intro r c hrc
    simp only at hrc ⊢
    rw [if_neg (by rintro ⟨rfl, rfl⟩; exact hrc hij)]
    exact hM r c hrc
  · cases h

theorem foldlM_inside {α σ : Type} (P : σ → Prop) {f : σ → α → Res σ} (hs : ∀ s a s', P s → f s a = .ok s' → P s') :
    ∀ (l : List α) {s r : σ}, P s → l.foldlM f s = .ok r → P r
  | [], s, r, h, e => by cases e; exact h
  | a :: l, s, r, h, e => by
    rw [List.foldlM_cons] at e
    obtain ⟨s', e1, e2⟩ := Res.bind_eq_ok.1 e
    exact foldlM_inside P hs l (hs _ _ _ h e1) e2

theorem matrixJCol_inside {f : MonMap R} {dict : MonMap ℕ} {t : IVec} {i col : ℕ} {M M' : CMat R} (hM : M.Inside)
    (h : matrixJCol f dict t i col M = .ok M') : M'.Inside := by
  refine foldlM_inside CMat.Inside (fun M e M' hM h => ?_) f hM h
  split at h
  · obtain ⟨_, -, h⟩ := Res.bind_eq_ok.1 h
    obtain ⟨_, -, h⟩ := Res.bind_eq_ok.1 h
    obtain ⟨_, -, h⟩ := Res.bind_eq_ok.1 h
    exact put_inside hM h
  · cases h; exact hM

theorem matrixNDCol_inside {f : MonMap R} {dict : MonMap ℕ} {t : IVec} {i col : ℕ} {M M' : CMat R} (hM : M.Inside)
    (h : matrixNDCol f dict t i col M = .ok M') : M'.Inside := by
  refine foldlM_inside CMat.Inside (fun M e M' hM h => ?_) f hM h
  obtain ⟨_, -, h⟩ := Res.bind_eq_ok.1 h
  obtain ⟨_, -, h⟩ := Res.bind_eq_ok.1 h
  exact put_inside hM h

theorem mk_zero_inside (r c : ℕ) : (CMat.mk' r c (fun _ _ => (0 : R))).Inside := fun i j _ => by
  simp [CMat.mk']

theorem matrixJ_inside {D : DR R} {l : ℤ} {T : CMat R} (h : matrixJ D l = .ok T) : T.Inside := by
  rw [matrixJ] at h
  split at h
  · obtain ⟨L, -, h⟩ := Res.bind_eq_ok.1 h
    cases h
    exact mk_zero_inside _ _
  · obtain ⟨L, -, h⟩ := Res.bind_eq_ok.1 h
    obtain ⟨S, -, h⟩ := Res.bind_eq_ok.1 h
    obtain ⟨dict, -, h⟩ := Res.bind_eq_ok.1 h
    refine forRange_ok_inv (fun _ M => M.Inside) (mk_zero_inside _ _) (fun i M M' _ hM h => ?_) h
    exact forRange_ok_inv (fun _ M => M.Inside) hM (fun j M M' _ hM h => matrixJCol_inside hM h) h

theorem matrixND_inside {D : DR R} {l : ℤ} {T : CMat R} (h : matrixND D l = .ok T) : T.Inside := by
  rw [matrixND] at h
  split at h
  · obtain ⟨L, -, h⟩ := Res.bind_eq_ok.1 h
    cases h
    exact mk_zero_inside _ _
  · obtain ⟨L, -, h⟩ := Res.bind_eq_ok.1 h
    obtain ⟨S, -, h⟩ := Res.bind_eq_ok.1 h
    obtain ⟨dict, -, h⟩ := Res.bind_eq_ok.1 h
    refine forRange_ok_inv (fun _ M => M.Inside) (mk_zero_inside _ _) (fun i M M' _ hM h => ?_) h
    exact forRange_ok_inv (fun _ M => M.Inside) hM (fun j M M' _ hM h => matrixNDCol_inside hM h) h

theorem inside_ext {T T' : CMat R} (h : T.Inside) (h' : T'.Inside) (hr : T.rows = T'.rows) (hc : T.cols = T'.cols)
    (he : ∀ r c, r < T.rows → c < T.cols → T.e r c = T'.e r c) : T = T' := by
  obtain ⟨r, c, e⟩ := T
  obtain ⟨r', c', e'⟩ := T'
  simp only at hr hc he
  subst hr hc
  congr 1
  funext i j
  by_cases hij : i < r ∧ j < c
  · exact he i j hij.1 hij.2
  · exact (h i j hij).trans (h' i j hij).symm

theorem blocks_ext {T T' : CMat R} {m k l : ℕ} (h : T.Inside) (h' : T'.Inside) (hr : T.rows = l) (hr' : T'.rows = l)
    (hc : T.cols = m * k) (hc' : T'.cols = m * k)
    (he : ∀ r i j, r < l → i < m → j < k → T.e r (i * k + j) = T'.e r (i * k + j)) : T = T' := by
  refine inside_ext h h' (by rw [hr, hr']) (by rw [hc, hc']) (fun r c h1 h2 => ?_)
  rw [hr] at h1
  rw [hc] at h2
  have hk : 0 < k := by
    rcases Nat.eq_zero_or_pos k with rfl | hk
    · simp at h2
    · exact hk
  have := he r (c / k) (c % k) h1 ((Nat.div_lt_iff_lt_mul hk).2 h2) (Nat.mod_lt _ hk)
  rwa [Nat.div_add_mod' c k] at this

/-- The matrix of `matrix_J` depends on the polynomial only. -/
theorem matrixJ_poly {D D' : DR R} (hD : TabOK D) (hD' : TabOK D') (hD2 : D' = { D with f := D'.f, basis := D'.basis, basisDict := D'.basisDict })
    (hd : 1 ≤ D.d) (hp : toPoly (D.n + 1) D.f = toPoly (D.n + 1) D'.f) (l : ℤ) (h1 : l ≤ (D.n + 1) * D.d) :
    matrixJ D' l = matrixJ D l := by
  have en : D'.n = D.n := by rw [hD2]
  have ed : D'.d = D.d := by rw [hD2]
  have el : ∀ l, D'.list l = D.list l := fun l => by rw [hD2]; rfl
  by_cases h0 : l < (D.d : ℤ) - 1
  · rw [matrixJ, matrixJ, if_pos h0, ed, if_pos h0, el]
  · obtain ⟨L, S, T, hL, hS, eL, eS, eT, hr, hc, hT⟩ := matrixJ_ok' hD hd l (by omega) h1
    obtain ⟨L', S', T', hL', hS', eL', eS', eT', hr', hc', hT'⟩ := matrixJ_ok' hD' (by omega) l (by omega)
      (by rw [en, ed]; exact h1)
    rw [el, eL] at eL'
    rw [el, ed, eS] at eS'
    obtain rfl := Except.ok.inj eL'
    obtain rfl := Except.ok.inj eS'
    rw [en] at hc' hT'
    rw [eT, eT']
    refine congrArg _ (blocks_ext (matrixJ_inside eT') (matrixJ_inside eT) hr' hr hc' hc (fun r i j h2 h3 h4 => ?_))
    have hs := (hL.2 (L.getD r [])).1 (by rw [getD_getElem _ _ _ h2]; exact List.getElem_mem _)
    have ht := (hS.2 (S.getD j [])).1 (by rw [getD_getElem _ _ _ h4]; exact List.getElem_mem _)
    have hf' := hD'.f_wf.1
    rw [en] at hf'
    rw [hT r i j h2 h3 h4, hT' r i j h2 h3 h4, ← coeff_jac D.f hD.f_wf.1 ⟨i, h3⟩ ht.1 ht.2.1 hs.1 hs.2.1,
      ← coeff_jac D'.f hf' ⟨i, h3⟩ ht.1 ht.2.1 hs.1 hs.2.1, hp]

/-- The matrix of `matrix_ND` depends on the polynomial only. -/
theorem matrixND_poly {D D' : DR R} (hD : TabOK D) (hD' : TabOK D') (hD2 : D' = { D with f := D'.f, basis := D'.basis, basisDict := D'.basisDict })
    (hp : toPoly (D.n + 1) D.f = toPoly (D.n + 1) D'.f) (l : ℤ) (h1 : l ≤ (D.n + 1) * D.d) :
    matrixND D' l = matrixND D l := by
  have en : D'.n = D.n := by rw [hD2]
  have ed : D'.d = D.d := by rw [hD2]
  have el : ∀ l, D'.list l = D.list l := fun l => by rw [hD2]; rfl
  by_cases h0 : l < (D.d : ℤ)
  · rw [matrixND, matrixND, if_pos h0, ed, if_pos h0, el]
  · obtain ⟨L, S, T, hL, hS, eL, eS, eT, hr, hc, hT⟩ := matrixND_ok' hD l (by omega) h1
    obtain ⟨L', S', T', hL', hS', eL', eS', eT', hr', hc', hT'⟩ := matrixND_ok' hD' l (by omega)
      (by rw [en, ed]; exact h1)
    rw [el, eL] at eL'
    rw [el, ed, eS] at eS'
    obtain rfl := Except.ok.inj eL'
    obtain rfl := Except.ok.inj eS'
    rw [en] at hc' hT'
    rw [eT, eT']
    refine congrArg _ (blocks_ext (matrixND_inside eT') (matrixND_inside eT) hr' hr hc' hc (fun r i j h2 h3 h4 => ?_))
    have hs := (hL.2 (L.getD r [])).1 (by rw [getD_getElem _ _ _ h2]; exact List.getElem_mem _)
    have ht := (hS.2 (S.getD j [])).1 (by rw [getD_getElem _ _ _ h4]; exact List.getElem_mem _)
    have hf' := hD'.f_wf.1
    rw [en] at hf'
    rw [hT r i j h2 h3 h4, hT' r i j h2 h3 h4, ← coeff_tor D.f hD.f_wf.1 ⟨i, h3⟩ ht.1 ht.2.1 hs.1 hs.2.1,
      ← coeff_tor D'.f hf' ⟨i, h3⟩ ht.1 ht.2.1 hs.1 hs.2.1, hp]

theorem forRange_congr_lt {σ : Type} {f g : ℕ → σ → Res σ} : ∀ (k : ℕ) (s : σ), (∀ i s, i < k → f i s = g i s) →
    forRange k s f = forRange k s g
  | 0, _, _ => rfl
  | k + 1, s, h => by
    rw [forRange, forRange, forRange_congr_lt k s (fun i s hi => h i s (by omega))]
    cases forRange k s g with
    | error e => rfl
    | ok s' => exact h k s' (by omega)

section

variable {n d : ℕ} {f g : MonMap R} (hf : WFPoly (n + 1) f) (hg : WFPoly (n + 1) g) (hfd : ∀ e ∈ f, deg e.1 = d)
  (hgd : ∀ e ∈ g, deg e.1 = d) (hp : toPoly (n + 1) f = toPoly (n + 1) g) (hnd : n < d) (solve : Solver R)

include hf hg hfd hgd hp hnd

theorem solveJ_poly (b b' : List IVec) (bd bd' : MonMap ℕ) (l : ℤ) (hl : l ≤ ((n : ℤ) + 1) * d) :
    solveJ solve { initTables n d g with basis := b', basisDict := bd' } l =
      solveJ solve { initTables n d f with basis := b, basisDict := bd } l := by
  have h : matrixJ (initTables n d g) l = matrixJ (initTables n d f) l :=
    matrixJ_poly (initTables_ok hf hfd hnd).toTabOK (initTables_ok hg hgd hnd).toTabOK rfl (by show 1 ≤ d; omega) hp l hl
  show (matrixJ (initTables n d g) l >>= fun M => solve M) = (matrixJ (initTables n d f) l >>= fun M => solve M)
  rw [h]

theorem solveND_poly (b b' : List IVec) (bd bd' : MonMap ℕ) (l : ℤ) (hl : l ≤ ((n : ℤ) + 1) * d) :
    solveND solve { initTables n d g with basis := b', basisDict := bd' } l =
      solveND solve { initTables n d f with basis := b, basisDict := bd } l := by
  have h : matrixND (initTables n d g) l = matrixND (initTables n d f) l :=
    matrixND_poly (initTables_ok hf hfd hnd).toTabOK (initTables_ok hg hgd hnd).toTabOK rfl hp l hl
  show (matrixND (initTables n d g) l >>= fun M => solve M) = (matrixND (initTables n d f) l >>= fun M => solve M)
  rw [h]

theorem initBasis_poly : initBasis solve (initTables n d g) = initBasis solve (initTables n d f) := by
  rw [initBasis, initBasis]
  refine forRange_congr_lt _ _ (fun i acc hi => ?_)
  have hi : i < n := hi
  have h := solveJ_poly hf hg hfd hgd hp hnd solve [] [] [] [] (((i : ℤ) + 1) * d - (n + 1)) (by nlinarith)
  have h' : solveJ solve (initTables n d g) (((i : ℤ) + 1) * (initTables n d g).d - ((initTables n d g).n + 1)) =
    solveJ solve (initTables n d f) (((i : ℤ) + 1) * (initTables n d f).d - ((initTables n d f).n + 1)) := h
  simp only [h']
  rfl

theorem initBasisND_poly (b : List IVec) (bd : MonMap ℕ) :
    initBasisND solve { initTables n d g with basis := b, basisDict := bd } =
      initBasisND solve { initTables n d f with basis := b, basisDict := bd } := by
  rw [initBasisND, initBasisND]
  refine forRange_congr_lt _ _ (fun i acc hi => ?_)
  have hi : i < n + 1 := hi
  have h := solveND_poly hf hg hfd hgd hp hnd solve b b bd bd ((i : ℤ) * d) (by nlinarith)
  have h' : solveND solve { initTables n d g with basis := b, basisDict := bd } ((i : ℤ) * (initTables n d g).d) =
    solveND solve { initTables n d f with basis := b, basisDict := bd } ((i : ℤ) * (initTables n d f).d) := h
  simp only [h']
  rfl

end

/-- The object with another list of terms. -/
def DR.withTerms (D : DR R) (g : MonMap R) : DR R := { D with f := g }

/-- The object with another list of terms. -/
def ND.withTerms (N : ND R) (g : MonMap R) : ND R := { N with toDR := N.toDR.withTerms g }

theorem DR_init_poly (solve : Solver R) {q n d : ℕ} {f g : MonMap R} (hq : q ≠ 0) (hf : WFPoly (n + 1) f)
    (hg : WFPoly (n + 1) g) (hfne : f ≠ []) (hgne : g ≠ []) (hfd : ∀ e ∈ f, deg e.1 = d) (hgd : ∀ e ∈ g, deg e.1 = d)
    (hsize : ∀ l ≤ (n + 1) * d, (l + n).choose n < 2 ^ 63) (hp : toPoly (n + 1) f = toPoly (n + 1) g) :
    DR.init solve q g = (DR.init solve q f).map (fun D => D.withTerms g) := by
  rw [init_eq solve hq hf hfne hfd hsize, init_eq solve hq hg hgne hgd hsize]
  by_cases hnd : n < d
  · rw [decide_eq_true hnd, check_true, Res.bind_ok, Res.bind_ok]
    by_cases hdq : d % q ≠ 0
    · rw [decide_eq_true hdq, check_true, Res.bind_ok, Res.bind_ok]
      have htop : solveJ solve (initTables n d g) (initTables n d g).topLevel =
          solveJ solve (initTables n d f) (initTables n d f).topLevel :=
        solveJ_poly hf hg hfd hgd hp hnd solve [] [] [] [] (((d : ℤ) - 2) * (n + 1) + 1) (by nlinarith)
      rw [htop, initBasis_poly hf hg hfd hgd hp hnd solve]
      cases solveJ solve (initTables n d f) (initTables n d f).topLevel with
      | error e => rfl
      | ok top =>
        rw [Res.bind_ok, Res.bind_ok]
        by_cases h0 : top.1.length = 0
        · rw [decide_eq_true h0, check_true, Res.bind_ok, Res.bind_ok]
          cases initBasis solve (initTables n d f) with
          | error e => rfl
          | ok basis => rfl
        · rw [decide_eq_false h0, check_false]; rfl
    · rw [decide_eq_false hdq, check_false]; rfl
  · rw [decide_eq_false hnd, check_false]; rfl

theorem ND_init_poly (solve : Solver R) {q n d : ℕ} {f g : MonMap R} (hq : q ≠ 0) (hf : WFPoly (n + 1) f)
    (hg : WFPoly (n + 1) g) (hfne : f ≠ []) (hgne : g ≠ []) (hfd : ∀ e ∈ f, deg e.1 = d) (hgd : ∀ e ∈ g, deg e.1 = d)
    (hsize : ∀ l ≤ (n + 1) * d, (l + n).choose n < 2 ^ 63) (hp : toPoly (n + 1) f = toPoly (n + 1) g) :
    ND.init solve q g = (ND.init solve q f).map (fun N => N.withTerms g) := by
  rw [ND.init, ND.init, DR_init_poly solve hq hf hg hfne hgne hfd hgd hsize hp]
  cases hD : DR.init solve q f with
  | error e => rfl
  | ok D =>
    obtain ⟨hnd, b, bd, rfl⟩ : n < d ∧ ∃ b bd, D = { initTables n d f with basis := b, basisDict := bd } := by
      rw [init_eq solve hq hf hfne hfd hsize] at hD
      obtain ⟨_, h1, hD⟩ := Res.bind_eq_ok.1 hD
      obtain ⟨_, -, hD⟩ := Res.bind_eq_ok.1 hD
      obtain ⟨_, -, hD⟩ := Res.bind_eq_ok.1 hD
      obtain ⟨_, -, hD⟩ := Res.bind_eq_ok.1 hD
      obtain ⟨b, -, hD⟩ := Res.bind_eq_ok.1 hD
      exact ⟨of_decide_eq_true (check_eq_ok.1 h1), b, buildDict b, (Except.ok.inj hD).symm⟩
    show (Except.ok ({ initTables n d g with basis := b, basisDict := bd } : DR R) >>= _) = _
    rw [Res.bind_ok, Res.bind_ok]
    have htop : solveND solve ({ initTables n d g with basis := b, basisDict := bd } : DR R)
        ({ initTables n d g with basis := b, basisDict := bd } : DR R).topND =
        solveND solve ({ initTables n d f with basis := b, basisDict := bd } : DR R)
        ({ initTables n d f with basis := b, basisDict := bd } : DR R).topND :=
      solveND_poly hf hg hfd hgd hp hnd solve b b bd bd (((d : ℤ) - 1) * (n + 1) + 1) (by nlinarith)
    rw [htop, initBasisND_poly hf hg hfd hgd hp hnd solve]
    cases solveND solve ({ initTables n d f with basis := b, basisDict := bd } : DR R)
        ({ initTables n d f with basis := b, basisDict := bd } : DR R).topND with
    | error e => rfl
    | ok top =>
      rw [Res.bind_ok, Res.bind_ok]
      by_cases h0 : top.1.length = 0
      · rw [decide_eq_true h0, check_true, Res.bind_ok, Res.bind_ok]
        cases initBasisND solve ({ initTables n d f with basis := b, basisDict := bd } : DR R) with
        | error e => rfl
        | ok basis =>
          rw [Res.bind_ok, Res.bind_ok]
          by_cases h1 : basis.length = d ^ n
          · show (check (decide (basis.length = d ^ n)) >>= _) = _
            rw [decide_eq_true h1, check_true, Res.bind_ok]
            show _ = Except.map _ (check (decide (basis.length = d ^ n)) >>= _)
            rw [decide_eq_true h1, check_true, Res.bind_ok]
            rfl
          · show (check (decide (basis.length = d ^ n)) >>= _) = _
            rw [decide_eq_false h1, check_false]
            show _ = Except.map _ (check (decide (basis.length = d ^ n)) >>= _)
            rw [decide_eq_false h1, check_false]
            rfl
      · rw [decide_eq_false h0, check_false]; rfl

end Verif
