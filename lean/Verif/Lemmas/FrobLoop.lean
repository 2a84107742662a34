import Verif.Lemmas.FrobSum

/-! The loops of the Frobenius functions. -/

namespace Verif

open Spec MvPolynomial

section

variable {R : Type} [CommRing R] [DecidableEq R]

/-- What the proof uses about a variant, for basis elements of pole order `m` and precision `N`. -/
structure VarOK (D : DR R) (p : Nat) (L : List IVec) (m N : Nat) (var : FrobVar R) : Prop where
  term : TermOK D p L var.term
  coef : ∀ (Dj : Int) (a fact : R), var.coef Dj a fact = (Dj : R) * a * fact
  skip : ∀ G, var.skip G = true → ∀ i, i < G.len → G.e i = 0
  djm : ∀ j, j < N → var.djm m j N = .ok (Spec.djm m N j)
  djmLast : ∀ j, j < N → m + j ≤ D.n / p → var.djmLast m j N = .ok (Spec.djm m N j)

theorem axmy_self {u v : IVec} (h : Below u v) (p : Nat) :
    axmy p p u v = mulVec p (List.zipWith (· - ·) u v) := by
  induction h with
  | nil => rfl
  | @cons x y xs ys _ _ ih =>
    have e1 : mulVec (p : Int) (List.zipWith (· - ·) (x :: xs) (y :: ys)) =
      (p * (x - y)) :: mulVec (p : Int) (List.zipWith (· - ·) xs ys) := rfl
    rw [axmy_cons, e1, ih]
    congr 1; ring

theorem skip_family {n : Nat} {L : List IVec} {G : CVec R} (hG : G.len = L.length) (h : ∀ i, i < G.len → G.e i = 0)
    (u : Fin (n + 1) → ℤ) : family n L u G.e = 0 := by
  rw [← family_zero n L u]
  exact family_congr (fun i hi => h i (by omega))

/-- The sum of the terms in a class modulo exact forms. -/
noncomputable abbrev cls (D : DR R) : MvPolynomial (Fin (D.n + 1)) R →ₗ[R] (MvPolynomial (Fin (D.n + 1)) R ⧸ Ex (DRpoly D) D.d) := (Ex (DRpoly D) D.d).mkQ

theorem cls_eq {D : DR R} {a b : MvPolynomial (Fin (D.n + 1)) R} (h : a - b ∈ Ex (DRpoly D) D.d) :
    cls D a = cls D b := by
  rw [Submodule.mkQ_apply, Submodule.mkQ_apply]
  exact (Submodule.Quotient.eq _).2 h

theorem cls_mem {D : DR R} {a b : MvPolynomial (Fin (D.n + 1)) R} (h : cls D a = cls D b) :
    a - b ∈ Ex (DRpoly D) D.d := by
  rw [Submodule.mkQ_apply, Submodule.mkQ_apply] at h
  exact (Submodule.Quotient.eq _).1 h

omit [DecidableEq R] in
theorem cls_msum {V : Type} {D : DR R} (g : IVec → V → MvPolynomial (Fin (D.n + 1)) R) (H : MonMap V) :
    (H.map (fun t => cls D (g t.1 t.2))).sum = cls D (msum g H) := by
  induction H with
  | nil => simp [msum]
  | cons e H ih => rw [List.map_cons, List.sum_cons, ih, msum_cons, map_add]

variable {D : DR R} {p m N r : Nat} {L : List IVec} {var : FrobVar R}

/-- Reducing all terms by one full step of `p`. -/
theorem frobTerms_big (hd : D.n < D.d) (hp : 1 ≤ p) (hr : r = D.d * D.n - D.n) (hv : VarOK D p L m N var) {e : Nat}
    (he : D.n / p + 1 < e) {H : MonMap (CVec R)} (hH : TermsOK D.n D.d L.length e H) (last : CVec R) :
    ∃ H', H.foldlM (frobTerm var D p e) ([], last) = .ok (H', last) ∧ TermsOK D.n D.d L.length (e - 1) H' ∧
      cls D (msum (termPoly D.n p r L) H') = cls D (msum (termPoly D.n p r L) H) := by
  have he2 : 2 ≤ e := by
    have h := he
    generalize D.n / p = q at h
    omega
  have hdm : D.n < p * (D.n / p) + p := by
    have := Nat.div_add_mod D.n p; have := Nat.mod_lt D.n hp; omega
  have hpe : D.n + p ≤ p * e := by
    have : p * (D.n / p + 2) ≤ p * e := Nat.mul_le_mul_left p he
    rw [Nat.mul_add] at this
    omega
  obtain ⟨s, e1, ⟨p1, p2⟩, v1⟩ := foldlM_acc
    (fun s : MonMap (CVec R) × CVec R => TermsOK D.n D.d L.length (e - 1) s.1 ∧ s.2 = last)
    (fun s => cls D (msum (termPoly D.n p r L) s.1)) (fun t => cls D (termPoly D.n p r L t.1 t.2)) (l := H)
    (f := frobTerm var D p e) (by
    rintro s t ht ⟨hs1, hs2⟩
    obtain ⟨t0, ts, tG⟩ := hH.entry t ht
    have tl : t.1.length = D.n + 1 := hH.klen t.1 (List.mem_map_of_mem ht)
    obtain ⟨v, ev1, hb, hvs⟩ := direction_ok (d := D.d) t0 (by have := posCount_le t.1; omega) (by
      rw [ts]
      have : (1 : Int) ≤ e := by omega
      nlinarith)
    obtain ⟨G', g1, g2, g3⟩ := hv.term p t.1 v t.2 e tl hb hvs ts hp (le_refl p) hpe tG
    rw [← hr] at g1 g3
    rw [axmy_self hb] at g1 g3
    have hyl : (List.zipWith (· - ·) t.1 v).length = D.n + 1 := by
      rw [List.length_zipWith, hb.length, tl, min_self]
    have hy0 : NonNeg (List.zipWith (· - ·) t.1 v) := nonNeg_of_ev hyl (fun i => by
      rw [ev_sub hb.length.symm]; have := (hb.getD i).2.1; simp only [Pi.sub_apply, ev]; omega)
    have hys : (List.zipWith (· - ·) t.1 v).sum = ((e - 1 : Nat) : Int) * D.d := by
      rw [← sum_ev hyl, ev_sub hb.length.symm, Finset.sum_congr rfl (fun i _ => Pi.sub_apply _ _ i),
        Finset.sum_sub_distrib, sum_ev tl, sum_ev (by rw [hb.length, tl]), hvs, ts, Nat.cast_sub (by omega)]
      push_cast; ring
    have g4 : cls D (termPoly D.n p r L t.1 t.2) = cls D (termPoly D.n p r L (List.zipWith (· - ·) t.1 v) G') :=
      cls_eq g3
    rw [frobTerm, ev1, Res.bind_ok]
    simp only [if_pos he]
    rw [g1, Res.bind_ok]
    by_cases hsk : var.skip G' = true
    · refine ⟨s, by rw [if_pos hsk]; rfl, ⟨hs1, hs2⟩, ?_⟩
      have : termPoly D.n p r L (List.zipWith (· - ·) t.1 v) G' = 0 := skip_family g2 (hv.skip G' hsk) _
      simp only [g4, this, map_zero, add_zero]
    · obtain ⟨H', a1, a2, a3⟩ := accTerm_ok (p := p) (r := r) (L := L) rfl hs1 hyl hy0 hys g2
      refine ⟨(H', s.2), ?_, ⟨a2, hs2⟩, ?_⟩
      · rw [if_neg hsk, subVec_ok hb.length.symm, Res.bind_ok, a1, Res.bind_ok]; rfl
      · simp only [a3, map_add, g4]) ([], last) ⟨TermsOK.nil _ _ _ _, rfl⟩
  refine ⟨s.1, ?_, p1, ?_⟩
  · rw [e1, ← p2]
  · rw [v1, cls_msum]; simp

theorem inclusion_apply {listH : List IVec} {M : CMat R} {w : Fin (D.n + 1) → ℤ}
    (hcol : ∀ k, k < L.length → ∑ r ∈ Finset.range listH.length, M.e r k • xpow R (ev D.n (listH.getD r []))
      = xpow R (fun i => w i + ev D.n (L.getD k []) i - 1)) (hrow : M.rows = listH.length) (hc : M.cols = L.length)
    {G : CVec R} (hG : G.len = L.length) :
    ∃ g, M.mulVec G = .ok g ∧ g.len = listH.length ∧ combo D.n listH g.e = family D.n L w G.e := by
  obtain ⟨g, e1, e2, e3⟩ := mulVec_ok M G (by omega)
  refine ⟨g, e1, by omega, ?_⟩
  rw [combo, family]
  have h1 : ∀ k ∈ Finset.range L.length, G.e k • xpow R (fun i => w i + ev D.n (L.getD k []) i - 1) =
      ∑ r ∈ Finset.range listH.length, (M.e r k * G.e k) • xpow R (ev D.n (listH.getD r [])) := by
    intro k hk
    rw [← hcol k (Finset.mem_range.1 hk), Finset.smul_sum]
    refine Finset.sum_congr rfl (fun r _ => ?_)
    rw [smul_smul, mul_comm]
  rw [Finset.sum_congr rfl h1, Finset.sum_comm]
  refine Finset.sum_congr rfl (fun r hr => ?_)
  rw [e3 r (by have := Finset.mem_range.1 hr; omega), hc, Finset.sum_smul]

/-- Reducing all terms of the last pass to pole order `n`. -/
theorem frobTerms_last (hD : DROk D) (hn : 1 ≤ D.n) (hp : 1 ≤ p) (hr : r = D.d * D.n - D.n)
    (hL : IsTable D.n r L) (hv : VarOK D p L m N var) {e : Nat}
    (he : e = D.n / p + 1) {listH : List IVec} (eH : D.list ((D.d : Int) * D.n - D.n - 1) = .ok listH)
    {H : MonMap (CVec R)} (hH : TermsOK D.n D.d L.length e H) (last : CVec R) (hlast : last.len = listH.length) :
    ∃ last', H.foldlM (frobTerm var D p e) ([], last) = .ok ([], last') ∧ last'.len = listH.length ∧
      cls D (combo D.n listH last'.e) = cls D (combo D.n listH last.e) + cls D (msum (termPoly D.n p r L) H) := by
  have he2 : 1 ≤ e := by
    have h := he
    generalize D.n / p = q at h
    omega
  have hd := hD.hd
  have hmod := Nat.mod_lt D.n hp
  have hdm := Nat.div_add_mod D.n p
  have hpe : D.n + (p - D.n % p) = p * e := by rw [he, Nat.mul_add]; omega
  obtain ⟨a1, a2, a3⟩ := term_arith (last := p - D.n % p) hd hr (le_of_eq hpe)
  obtain ⟨s, e1, ⟨p1, p2⟩, v1⟩ := foldlM_acc
    (fun s : MonMap (CVec R) × CVec R => s.1 = [] ∧ s.2.len = listH.length)
    (fun s => cls D (combo D.n listH s.2.e)) (fun t => cls D (termPoly D.n p r L t.1 t.2)) (l := H)
    (f := frobTerm var D p e) (by
    rintro s t ht ⟨hs1, hs2⟩
    obtain ⟨t0, ts, tG⟩ := hH.entry t ht
    have tl : t.1.length = D.n + 1 := hH.klen t.1 (List.mem_map_of_mem ht)
    obtain ⟨v, ev1, hb, hvs⟩ := direction_ok (d := D.d) t0 (by have := posCount_le t.1; omega) (by
      rw [ts]
      have : (1 : Int) ≤ e := by omega
      nlinarith)
    obtain ⟨G', g1, g2, g3⟩ := hv.term (p - D.n % p) t.1 v t.2 e tl hb hvs ts (by omega) (by omega) (by omega) tG
    rw [← hr] at g1 g3
    have hwl : (tweakNat (axmy p (p - D.n % p) t.1 v) r).length = D.n + 1 := by
      rw [tweakNat_length, axmy_length hb.length, tl]
    have hws : (tweakNat (axmy p (p - D.n % p) t.1 v) r).sum = D.n := by
      have h1 := axmy_sum hb.length p (p - D.n % p)
      obtain ⟨-, -, h2⟩ := tweakNat_props _ r (axmy_nonneg hb (show p - D.n % p ≤ p by omega))
      rw [h2, h1, ts, hvs, min_eq_left a2, a1]
      have h3 : (D.n : Int) + ((p - D.n % p : Nat) : Int) = p * e := by exact_mod_cast hpe
      have h4 : (p : Int) * (e * D.d) = (D.n + ((p - D.n % p : Nat) : Int)) * D.d := by rw [h3]; ring
      rw [h4]; ring
    obtain ⟨L', listH', M, b1, b2, b3, b4, b5, b6, b7, b8⟩ := inclMatJ_ok hD hn hwl hws
    rw [eH] at b2
    obtain rfl := Except.ok.inj b2
    rw [a1] at hL
    obtain rfl := hL.eq b3
    obtain ⟨g, c1, c2, c3⟩ := inclusion_apply (D := D) b8 b6 b7 g2
    rw [frobTerm, ev1, Res.bind_ok]
    simp only [if_neg (show ¬ D.n / p + 1 < e by omega)]
    rw [g1, Res.bind_ok]
    have g4 : cls D (termPoly D.n p r L t.1 t.2) =
        cls D (family D.n L (ev D.n (tweakNat (axmy p (p - D.n % p) t.1 v) r)) G'.e) := cls_eq g3
    by_cases hsk : var.skip G' = true
    · refine ⟨s, by rw [if_pos hsk]; rfl, ⟨hs1, hs2⟩, ?_⟩
      simp only [g4, skip_family g2 (hv.skip G' hsk), map_zero, add_zero]
    · refine ⟨(s.1, CVec.mk' s.2.len (fun i => s.2.e i + g.e i)), ?_, ⟨hs1, hs2⟩, ?_⟩
      · rw [if_neg hsk, b5, Res.bind_ok, c1, Res.bind_ok, CVec.add, if_pos (by omega), Res.bind_ok]; rfl
      · simp only [g4]
        rw [← c3, ← map_add, ← combo_add]
        congr 1
        refine combo_congr (fun i hi => ?_)
        simp only [CVec.mk', if_pos (show i < s.2.len by omega)]) ([], last) ⟨rfl, hlast⟩
  refine ⟨s.2, ?_, p2, ?_⟩
  · rw [e1, ← p1]
  · rw [v1, cls_msum]

end

end Verif
