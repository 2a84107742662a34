import Verif.Lemmas.FrobNDTerm

/-! The loops of the Frobenius functions of the non-degenerate object. -/

namespace Verif

open Spec MvPolynomial

theorem mem_set_any {V : Type} {m : MonMap V} {k : IVec} {v : V} {t : IVec × V} (h : t ∈ MonMap.set m k v) :
    t = (k, v) ∨ t ∈ m := by
  induction m with
  | nil => simpa [MonMap.set] using h
  | cons e' m ih =>
    obtain ⟨k', v'⟩ := e'
    rw [MonMap.set] at h
    split at h
    · rcases List.mem_cons.1 h with h | h
      · exact Or.inl h
      · exact Or.inr (List.mem_cons_of_mem _ h)
    · split at h
      · rcases List.mem_cons.1 h with h | h
        · exact Or.inl h
        · exact Or.inr h
      · rcases List.mem_cons.1 h with h | h
        · exact Or.inr (by rw [h]; simp)
        · rcases ih h with h | h
          · exact Or.inl h
          · exact Or.inr (List.mem_cons_of_mem _ h)

/-- A fold with a ghost value that is added up. -/
theorem foldlM_rel {α σ A : Type} [AddCommMonoid A] {f : σ → α → Res σ} (Q : σ → A → Prop) (g : α → A)
    {l : List α} (h : ∀ s a x, x ∈ l → Q s a → ∃ s', f s x = .ok s' ∧ Q s' (a + g x)) :
    ∀ s a, Q s a → ∃ s', l.foldlM f s = .ok s' ∧ Q s' (a + (l.map g).sum) := by
  induction l with
  | nil => intro s a hs; exact ⟨s, rfl, by simpa using hs⟩
  | cons x l ih =>
    intro s a hs
    obtain ⟨s1, e1, q1⟩ := h s a x (by simp) hs
    obtain ⟨s2, e2, q2⟩ := ih (fun s a x hx => h s a x (List.mem_cons_of_mem _ hx)) s1 _ q1
    refine ⟨s2, ?_, by rw [List.map_cons, List.sum_cons, ← add_assoc]; exact q2⟩
    rw [List.foldlM_cons]
    show f s x >>= _ = _
    rw [e1]
    exact e2

section

variable {R : Type} [CommRing R] [DecidableEq R]

/-- All exponents are above `lo`. -/
def KeysAbove (n : Nat) (lo : Fin (n + 1) → ℤ) (H : MonMap (CVec R)) : Prop := ∀ t ∈ H, ∀ i, lo i < ev n t.1 i

omit [CommRing R] [DecidableEq R] in
theorem KeysAbove.set {n : Nat} {lo : Fin (n + 1) → ℤ} {H : MonMap (CVec R)} (h : KeysAbove n lo H) {k : IVec}
    (hk : ∀ i, lo i < ev n k i) (G : CVec R) : KeysAbove n lo (H.set k G) := by
  intro t ht
  rcases mem_set_any ht with rfl | ht
  · exact hk
  · exact h t ht

/-- What the proof uses about a variant: `lo e` is a lower bound for the exponents of the terms of pass `e`. -/
structure NDVarOK (N : ND R) (p m prec : Nat) (ei : IVec) (lo : Nat → Fin (N.n + 1) → ℤ) (var : NDVar R) : Prop where
  term : TermNDOK N p var.term
  coef : ∀ (Dj : Int) (a fact : R), var.coef Dj a fact = (Dj : R) * a * fact
  drop : ∀ c, var.drop c = true → c = 0
  djm : ∀ j, j < prec → var.djm m j prec = .ok (Spec.djm m prec j)
  lo0 : ∀ e i, 0 ≤ lo e i
  loNew : ∀ e, m ≤ e → ∀ i, lo e i ≤ ev N.n ei i
  dir : ∀ (e : Nat) (u : IVec), 1 < e → u.length = N.n + 1 → u.sum = (e : Int) * N.d → (∀ i, lo e i < ev N.n u i) →
    ∃ v, var.dir e m ei u = .ok v ∧ IsTuple (N.n + 1) N.d v ∧ ∀ i, lo (e - 1) i < ev N.n u i - ev N.n v i

/-- The polynomial of all terms. -/
noncomputable abbrev termsND (N : ND R) (p : Nat) (H : MonMap (CVec R)) : MvPolynomial (Fin (N.n + 1)) R :=
  msum (termPoly N.n p 0 N.ndBasis) H

variable {N : ND R} {p m prec : Nat} {ei : IVec} {lo : Nat → Fin (N.n + 1) → ℤ} {var : NDVar R} {solve : Solver R}

omit [CommRing R] [DecidableEq R] in
theorem nonNeg_of_above {n : Nat} {u : IVec} {l : Fin (n + 1) → ℤ} (hl : u.length = n + 1) (h0 : ∀ i, 0 ≤ l i)
    (h : ∀ i, l i < ev n u i) : NonNeg u :=
  nonNeg_of_ev hl (fun i => by have := h0 i; have := h i; omega)

theorem isZero_family {n : Nat} {L : List IVec} {G : CVec R} (hG : G.len = L.length) (h : G.isZero = true)
    (u : Fin (n + 1) → ℤ) : family n L u G.e = 0 := by
  refine skip_family hG (fun i hi => ?_) u
  rw [CVec.isZero, List.all_eq_true] at h
  exact of_decide_eq_true (h i (List.mem_range.2 hi))

/-- Reducing all terms by one full step of `p`. -/
theorem frobTermsND_big (hv : NDVarOK N p m prec ei lo var) {e : Nat} (he : 1 < e) (hp : 1 ≤ p)
    {H : MonMap (CVec R)} (hH : TermsOK N.n N.d N.ndBasis.length e H) (hlo : KeysAbove N.n (lo e) H) (last : CVec R) :
    ∃ H', H.foldlM (frobTermND var solve N p e m ei) ([], last) = .ok (H', last) ∧
      TermsOK N.n N.d N.ndBasis.length (e - 1) H' ∧ KeysAbove N.n (lo (e - 1)) H' ∧
      cls N.toDR (termsND N p H') = cls N.toDR (termsND N p H) := by
  obtain ⟨s, e1, ⟨p1, p2, p3⟩, v1⟩ := foldlM_acc
    (fun s : MonMap (CVec R) × CVec R => TermsOK N.n N.d N.ndBasis.length (e - 1) s.1 ∧ KeysAbove N.n (lo (e - 1)) s.1 ∧
      s.2 = last)
    (fun s => cls N.toDR (termsND N p s.1)) (fun t => cls N.toDR (termPoly N.n p 0 N.ndBasis t.1 t.2)) (l := H)
    (f := frobTermND var solve N p e m ei) (by
    rintro s t ht ⟨hs1, hs2, hs3⟩
    obtain ⟨-, ts, tG⟩ := hH.entry t ht
    have tl : t.1.length = N.n + 1 := hH.klen t.1 (List.mem_map_of_mem ht)
    obtain ⟨v, ev1, hvt, hvl⟩ := hv.dir e t.1 he tl ts (hlo t ht)
    have hlen : v.length = t.1.length := by rw [tl, hvt.1]
    obtain ⟨G', g1, g2, g3⟩ := hv.term p t.1 v t.2 e tl hvt ts (by omega) (le_refl p) (Or.inl rfl) (fun i => by
      have h1 := hvl i
      have h2 := hv.lo0 (e - 1) i
      have h3 : (1 : Int) ≤ ev N.n t.1 i - ev N.n v i := by omega
      have h4 : (1 : Int) ≤ p := by omega
      nlinarith) tG
    rw [axmy_self' hlen] at g1 g3
    have hyl : (List.zipWith (· - ·) t.1 v).length = N.n + 1 := by
      rw [List.length_zipWith, hlen, tl, min_self]
    have hyev : ∀ i, lo (e - 1) i < ev N.n (List.zipWith (· - ·) t.1 v) i := fun i => by
      rw [ev_sub hlen.symm]; exact hvl i
    have hy0 := nonNeg_of_above hyl (hv.lo0 _) hyev
    have hys : (List.zipWith (· - ·) t.1 v).sum = ((e - 1 : Nat) : Int) * N.d := by
      rw [← sum_ev hyl, ev_sub hlen.symm, Finset.sum_congr rfl (fun i _ => Pi.sub_apply _ _ i),
        Finset.sum_sub_distrib, sum_ev tl, sum_ev_tuple hvt, ts, Nat.cast_sub (by omega)]
      push_cast; ring
    have g4 : cls N.toDR (termPoly N.n p 0 N.ndBasis t.1 t.2) =
        cls N.toDR (termPoly N.n p 0 N.ndBasis (List.zipWith (· - ·) t.1 v) G') := cls_eq g3
    rw [frobTermND, if_pos he, ev1, Res.bind_ok, if_pos he, g1, Res.bind_ok]
    simp only
    by_cases hz : G'.isZero = true
    · refine ⟨s, by rw [if_pos hz]; rfl, ⟨hs1, hs2, hs3⟩, ?_⟩
      have : termPoly N.n p 0 N.ndBasis (List.zipWith (· - ·) t.1 v) G' = 0 := isZero_family g2 hz _
      rw [g4, this, map_zero, add_zero]
    · obtain ⟨H', a1, a2, a3⟩ := accTerm_ok (p := p) (r := 0) (L := N.ndBasis) rfl hs1 hyl hy0 hys g2
      have hk : KeysAbove N.n (lo (e - 1)) H' := by
        unfold accTerm at a1
        split at a1
        · obtain rfl := Except.ok.inj a1
          exact hs2.set hyev _
        · obtain ⟨x, -, h2⟩ := Res.bind_eq_ok.1 a1
          obtain rfl := Except.ok.inj h2
          exact hs2.set hyev _
      refine ⟨(H', s.2), ?_, ⟨a2, hk, hs3⟩, ?_⟩
      · rw [if_neg hz, if_pos he, subVec_ok hlen.symm, Res.bind_ok, decide_eq_true rfl, check_true, Res.bind_ok, a1,
          Res.bind_ok]
        rfl
      · simp only [a3, map_add, g4]) ([], last)
      ⟨TermsOK.nil _ _ _ _, fun t ht => absurd ht (by simp), rfl⟩
  refine ⟨s.1, ?_, p1, p2, ?_⟩
  · rw [e1, ← p3]
  · rw [v1, cls_msum]; simp

/-- A vector of coordinates in the cohomology basis, with the factorials of the pole orders, stands for a class. -/
def StandsFor (D : DR R) (F : CVec R) (a : MvPolynomial (Fin (D.n + 1)) R ⧸ Ex (DRpoly D) D.d) : Prop :=
  F.len = D.basis.length ∧ ∃ c : Nat → R, (∀ r, r < D.basis.length → F.e r = (poleFact D r : R) * c r) ∧
    a = cls D (∑ r ∈ Finset.range D.basis.length, c r • xpow R (ev D.n (D.basis.getD r [])))

omit [DecidableEq R] in
theorem StandsFor.zero (D : DR R) : StandsFor D (CVec.mk' D.basis.length (fun _ => 0)) 0 :=
  ⟨rfl, fun _ => 0, fun r hr => by rw [mk'_e_of_lt _ hr, mul_zero], by simp⟩

omit [DecidableEq R] in
theorem StandsFor.add {D : DR R} {F G : CVec R} {a b} (hF : StandsFor D F a) (hG : StandsFor D G b) :
    ∃ F', F.add G = .ok F' ∧ StandsFor D F' (a + b) := by
  obtain ⟨l1, c1, h1, rfl⟩ := hF
  obtain ⟨l2, c2, h2, rfl⟩ := hG
  refine ⟨CVec.mk' F.len (fun i => F.e i + G.e i), by rw [CVec.add, if_pos (by omega)], l1, fun r => c1 r + c2 r,
    fun r hr => ?_, ?_⟩
  · rw [mk'_e_of_lt _ (by omega), h1 r hr, h2 r hr, mul_add]
  · rw [← map_add, ← Finset.sum_add_distrib]
    simp only [add_smul]

/-- Reducing all terms of the last pass. -/
theorem frobTermsND_last [Nontrivial R] (hsolve : SolverOK solve) (hN : NDOk solve N) (htop : TopOK solve N.toDR)
    (hB : BasisOK solve N.toDR)
    (hbasis : N.ndBasis = (List.range (N.n + 1)).flatMap (ndBlock solve N.toDR))
    (hblk : ∀ i, i < N.n + 1 → NDBlockOK solve N.toDR i (ndBlock solve N.toDR i))
    (hv : NDVarOK N p m prec ei lo var) (hp : 1 ≤ p)
    {H : MonMap (CVec R)} (hH : TermsOK N.n N.d N.ndBasis.length 1 H) (hlo : KeysAbove N.n (lo 1) H) {F : CVec R} {a}
    (hF : StandsFor N.toDR F a) :
    ∃ F', H.foldlM (frobTermND var solve N p 1 m ei) ([], F) = .ok ([], F') ∧
      StandsFor N.toDR F' (a + cls N.toDR (termsND N p H)) := by
  obtain ⟨s, e1, p1, p2⟩ := foldlM_rel
    (fun (s : MonMap (CVec R) × CVec R) b => s.1 = [] ∧ StandsFor N.toDR s.2 b)
    (fun t => cls N.toDR (termPoly N.n p 0 N.ndBasis t.1 t.2)) (l := H)
    (f := frobTermND var solve N p 1 m ei) (by
    rintro s b t ht ⟨hs1, hs2⟩
    obtain ⟨-, ts, tG⟩ := hH.entry t ht
    have tl : t.1.length = N.n + 1 := hH.klen t.1 (List.mem_map_of_mem ht)
    have hpos : ∀ i, 1 ≤ ev N.n t.1 i := fun i => by have := hlo t ht i; have := hv.lo0 1 i; omega
    have hut : IsTuple (N.n + 1) N.d t.1 := tuple_of_ev tl (fun i => by have := hpos i; omega) (by
      rw [sum_ev tl, ts]; push_cast; ring)
    obtain ⟨G', g1, g2, g3⟩ := hv.term (p - 1) t.1 t.1 t.2 1 tl hut ts (le_refl 1) (by omega) (Or.inr ⟨rfl, rfl⟩) (fun i => by
      have h1 := hpos i
      rw [Nat.cast_sub hp]; push_cast; nlinarith) tG
    rw [axmy_last t.1 hp] at g1 g3
    have g4 : cls N.toDR (termPoly N.n p 0 N.ndBasis t.1 t.2) =
        cls N.toDR (family N.n N.ndBasis (ev N.n t.1) G'.e) := cls_eq g3
    rw [frobTermND, if_neg (lt_irrefl 1), Res.bind_ok, if_neg (lt_irrefl 1), g1, Res.bind_ok]
    simp only
    by_cases hz : G'.isZero = true
    · refine ⟨s, by rw [if_pos hz]; rfl, hs1, ?_⟩
      rw [g4, isZero_family g2 hz, map_zero, add_zero]
      exact hs2
    · obtain ⟨M, eM, -, -, hrel⟩ := lastND_ok hsolve hN htop hB hbasis hblk hut (pos_of_ev tl hpos)
      obtain ⟨g, c, m1, m2, m3, m4⟩ := hrel G' g2
      have hg : StandsFor N.toDR g (cls N.toDR (family N.n N.ndBasis (ev N.n t.1) G'.e)) :=
        ⟨m2, c, m3, cls_eq (by rw [family_mul (ndBasis_nonneg hN) hpos]; exact m4)⟩
      obtain ⟨F', f1, f2⟩ := hs2.add hg
      refine ⟨(s.1, F'), ?_, hs1, ?_⟩
      · rw [if_neg hz, if_neg (lt_irrefl 1), decide_eq_true trivial, Bool.or_true, check_true, Res.bind_ok, eM, Res.bind_ok, m1,
          Res.bind_ok, f1]
        rfl
      · rw [g4]; exact f2) ([], F) a ⟨rfl, hF⟩
  refine ⟨s.2, ?_, ?_⟩
  · rw [e1, ← p1]
  · rw [cls_msum] at p2
    exact p2

/-- The new terms. -/
theorem addTermsND_ok (hd : N.n < N.d) (hN : NDOk solve N) (hv : NDVarOK N p m prec ei lo var) {e : Nat} (hp : 1 ≤ p)
    (hel : ei.length = N.n + 1) (he0 : NonNeg ei) (hes : ei.sum = (m : Int) * N.d - (N.n + 1)) (hme : m ≤ e)
    {P : MonMap R} (hP : WFPoly (N.n + 1) P) (hPd : ∀ t ∈ P, deg t.1 = ((e - m : Nat) : Int) * N.d) (Dj : Int) (fact : R)
    {H : MonMap (CVec R)} (hH : TermsOK N.n N.d N.ndBasis.length e H) (hlo : KeysAbove N.n (lo e) H) :
    ∃ H', addTermsND var N ei Dj fact P H = .ok H' ∧ TermsOK N.n N.d N.ndBasis.length e H' ∧ KeysAbove N.n (lo e) H' ∧
      termsND N p H' = termsND N p H +
        msum (fun k a => var.coef Dj a fact • xpow R (fun i => p * (ev N.n k i + ev N.n ei i + 1) - 1)) P := by
  obtain ⟨H', e1, ⟨p1, p2⟩, v1⟩ := foldlM_acc
    (fun H => TermsOK N.n N.d N.ndBasis.length e H ∧ KeysAbove N.n (lo e) H) (termsND N p)
    (fun t : IVec × R => var.coef Dj t.2 fact • xpow R (fun i => p * (ev N.n t.1 i + ev N.n ei i + 1) - 1)) (l := P)
    (f := fun H it => do
      let a ← addVec it.1 ei
      let mon ← addVec a (List.replicate (N.n + 1) 1)
      if var.drop (var.coef Dj it.2 fact) then .ok H
      else hAdd N.ndBasis.length H mon 0 (var.coef Dj it.2 fact)) (by
    rintro s t ht ⟨hs, hsl⟩
    obtain ⟨tl, t0⟩ := hP.1 t ht
    have l1 : (List.zipWith (· + ·) t.1 ei).length = N.n + 1 := by rw [List.length_zipWith, tl, hel, min_self]
    have l2 : (List.zipWith (· + ·) (List.zipWith (· + ·) t.1 ei) (List.replicate (N.n + 1) 1)).length = N.n + 1 := by
      rw [List.length_zipWith, l1, List.length_replicate, min_self]
    have hev : ev N.n (List.zipWith (· + ·) (List.zipWith (· + ·) t.1 ei) (List.replicate (N.n + 1) 1)) =
        fun i => ev N.n t.1 i + ev N.n ei i + 1 := by
      rw [ev_add (by rw [l1, List.length_replicate]), ev_add (by rw [tl, hel]), ev_ones]
      funext i; simp
    have hnn : NonNeg (List.zipWith (· + ·) (List.zipWith (· + ·) t.1 ei) (List.replicate (N.n + 1) 1)) :=
      nonNeg_of_ev l2 (fun i => by
        rw [hev]; have := nonNeg_getD t0 i; have := nonNeg_getD he0 i; simp only [ev]; omega)
    have hsum : (List.zipWith (· + ·) (List.zipWith (· + ·) t.1 ei) (List.replicate (N.n + 1) (1 : Int))).sum = (e : Int) * N.d := by
      rw [sum_zipWith_add (by rw [l1, List.length_replicate]), sum_zipWith_add (by rw [tl, hel])]
      have h1 := hPd t ht
      rw [deg] at h1
      rw [h1, hes, List.sum_replicate, Nat.cast_sub hme]
      simp only [nsmul_eq_mul]; push_cast; ring
    have hup : ∀ i, lo e i < ev N.n (List.zipWith (· + ·) (List.zipWith (· + ·) t.1 ei) (List.replicate (N.n + 1) 1)) i := by
      intro i
      rw [hev]
      have h1 := hv.loNew e hme i
      have h2 : 0 ≤ ev N.n t.1 i := nonNeg_getD t0 i
      simp only
      omega
    obtain ⟨q1, q2⟩ := addTerm_ok (p := p) (r := 0) (L := N.ndBasis) rfl hs l2 hnn hsum hN.head.1 (var.coef Dj t.2 fact)
    rw [addVec_ok (by rw [tl, hel]), Res.bind_ok, addVec_ok (by rw [l1, List.length_replicate]), Res.bind_ok]
    by_cases hdrop : var.drop (var.coef Dj t.2 fact) = true
    · refine ⟨s, by rw [if_pos hdrop], ⟨hs, hsl⟩, ?_⟩
      rw [hv.drop _ hdrop, zero_smul, add_zero]
    · refine ⟨_, by rw [if_neg hdrop, hAdd, if_pos hN.head.1], ⟨q1, hsl.set hup _⟩, ?_⟩
      rw [termsND, q2, hN.head.2]
      congr 3
      funext i
      rw [ev, ev, getD_replicate_zero]
      have : (tweakNat (mulVec (p : Int) (List.zipWith (· + ·) (List.zipWith (· + ·) t.1 ei) (List.replicate (N.n + 1) 1))) 0).getD i.val 0 =
        ev N.n (mulVec (p : Int) (List.zipWith (· + ·) (List.zipWith (· + ·) t.1 ei) (List.replicate (N.n + 1) 1))) i := rfl
      rw [this, ev_mulVec, hev]
      ring) H ⟨hH, hlo⟩
  exact ⟨H', e1, p1, p2, v1⟩

end

end Verif
