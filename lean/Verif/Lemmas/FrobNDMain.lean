import Verif.Lemmas.FrobNDLoop
import Verif.Props.Tools

/-! The Frobenius functions of the non-degenerate object keep the class of the whole sum. -/

namespace Verif

open Spec MvPolynomial

section

variable {R : Type} [CommRing R] [DecidableEq R]

/-- Everything the loops are given. -/
structure FrobNDIn (solve : Solver R) (N : ND R) (p : Nat) (T : List (MonMap R)) (ei : IVec) (m prec : Nat)
    (lo : Nat → Fin (N.n + 1) → ℤ) (var : NDVar R) : Prop where
  nd : NDOk solve N
  p1 : 1 ≤ p
  var_ok : NDVarOK N p m prec ei lo var
  table : TableOK N.n N.d N.f T
  tlen : prec ≤ T.length
  N1 : 1 ≤ prec
  m1 : 1 ≤ m
  elen : ei.length = N.n + 1
  enn : NonNeg ei
  esum : ei.sum = (m : Int) * N.d - (N.n + 1)

variable {N : ND R} {p m prec : Nat} {T : List (MonMap R)} {ei : IVec} {lo : Nat → Fin (N.n + 1) → ℤ} {var : NDVar R}
  {solve : Solver R}

/-- Before pass `e`. -/
structure NDMainInv (N : ND R) (p m prec : Nat) (ei : IVec) (lo : Nat → Fin (N.n + 1) → ℤ) (e : Nat)
    (st : FrobState R) : Prop where
  fact : st.fact = ((phi p (m + prec - 1) e : Nat) : R)
  terms : TermsOK N.n N.d N.ndBasis.length e st.H
  above : KeysAbove N.n (lo e) st.H
  rel : cls N.toDR (tailPoly N.toDR p m prec ei e) = cls N.toDR (termsND N p st.H)

theorem frobNewND_ok (h : FrobNDIn solve N p T ei m prec lo var) {e : Nat} (heM : e + 1 ≤ m + prec - 1)
    {st : FrobState R} (hst : NDMainInv N p m prec ei lo (e + 1) st) :
    ∃ H, frobNewND var N T ei m prec (e + 1) st = .ok H ∧ TermsOK N.n N.d N.ndBasis.length (e + 1) H ∧
      KeysAbove N.n (lo (e + 1)) H ∧
      cls N.toDR (tailPoly N.toDR p m prec ei e) = cls N.toDR (termsND N p H) := by
  rw [tailPoly_succ N.toDR ei heM]
  unfold frobNewND
  by_cases hm : m ≤ e + 1
  · have hN1 := h.N1
    have hj : e + 1 - m < prec := by omega
    have hlt : e + 1 - m < T.length := lt_of_lt_of_le hj h.tlen
    obtain ⟨a1, a2, a3⟩ := h.table.entry (e + 1 - m) T[e + 1 - m] (List.getElem?_eq_getElem hlt)
    have q4 : msum (fun k a => a • xpow R (fun i => p * (ev N.n k i + ev N.n ei i + 1) - 1)) T[e + 1 - m] =
        expand p (DRpoly N.toDR ^ (e + 1 - m)) * xpow R (fun i => p * (ev N.n ei i + 1) - 1) := by
      rw [← expand_toPoly p h.p1 a1.1 (b := ev N.n ei) (fun i => nonNeg_getD h.enn i), a2]
      rfl
    obtain ⟨H, b1, b2, b3, b4⟩ := addTermsND_ok (e := e + 1) h.nd.dr.hd h.nd h.var_ok h.p1 h.elen h.enn h.esum hm a1 a3
      (djm m prec (e + 1 - m)) st.fact hst.terms hst.above
    refine ⟨H, ?_, b2, b3, ?_⟩
    · rw [if_pos hm, h.var_ok.djm _ hj, Res.bind_ok, aget_of_lt _ _ hlt, Res.bind_ok, b1]
    · rw [b4, map_add, map_add, ← hst.rel]
      simp only [h.var_ok.coef]
      rw [msum_coef, q4, hst.fact, newPoly, if_pos hm]
      exact add_comm _ _
  · refine ⟨st.H, by rw [if_neg hm], hst.terms, hst.above, ?_⟩
    rw [newPoly, if_neg hm, zero_add, hst.rel]

theorem frobPassND_big (h : FrobNDIn solve N p T ei m prec lo var) {e : Nat} (he : 1 ≤ e) (heM : e + 1 ≤ m + prec - 1)
    {st : FrobState R} (hst : NDMainInv N p m prec ei lo (e + 1) st) :
    ∃ st', frobPassND var solve N p T ei m prec (e + 1) st = .ok st' ∧ NDMainInv N p m prec ei lo e st' ∧
      st'.last = st.last := by
  obtain ⟨H, a1, a2, a3, a4⟩ := frobNewND_ok h heM hst
  obtain ⟨H', b1, b2, b3, b4⟩ := frobTermsND_big (solve := solve) h.var_ok (e := e + 1) (by omega) h.p1 a2 a3 st.last
  refine ⟨⟨factStep p (e + 1) st.fact, H', st.last⟩, ?_, ⟨?_, b2, b3, ?_⟩, rfl⟩
  · rw [frobPassND, a1, Res.bind_ok, b1, Res.bind_ok]; rfl
  · show factStep p (e + 1) st.fact = _
    rw [hst.fact, factStep_phi h.p1 (Nat.succ_pos _) heM]; rfl
  · rw [a4]; exact b4.symm

theorem frobPassND_last [Nontrivial R] (hsolve : SolverOK solve) (htop : TopOK solve N.toDR)
    (hB : BasisOK solve N.toDR)
    (hbasis : N.ndBasis = (List.range (N.n + 1)).flatMap (ndBlock solve N.toDR))
    (hblk : ∀ i, i < N.n + 1 → NDBlockOK solve N.toDR i (ndBlock solve N.toDR i))
    (h : FrobNDIn solve N p T ei m prec lo var) {st : FrobState R} (hst : NDMainInv N p m prec ei lo 1 st)
    (hl : st.last = CVec.mk' N.basis.length (fun _ => 0)) :
    ∃ st', frobPassND var solve N p T ei m prec 1 st = .ok st' ∧
      st'.fact = (((p * (m + prec - 1) - 1).factorial : Nat) : R) ∧
      StandsFor N.toDR st'.last (cls N.toDR (tailPoly N.toDR p m prec ei 0)) := by
  have heM : 0 + 1 ≤ m + prec - 1 := by have := h.m1; have := h.N1; omega
  obtain ⟨H, a1, a2, a3, a4⟩ := frobNewND_ok h (e := 0) heM hst
  obtain ⟨F', b1, b2⟩ := frobTermsND_last hsolve h.nd htop hB hbasis hblk h.var_ok h.p1 a2 a3
    (StandsFor.zero N.toDR)
  refine ⟨⟨factStep p 1 st.fact, [], F'⟩, ?_, ?_, ?_⟩
  · rw [frobPassND, a1, Res.bind_ok, hl, b1, Res.bind_ok]; rfl
  · show factStep p 1 st.fact = _
    rw [hst.fact, factStep_phi h.p1 (Nat.succ_pos 0) heM, ← phi_zero]
  · rw [a4, ← zero_add (cls N.toDR (termsND N p H))]; exact b2

/-- The loop over `e`, from the start: the closing value of `fact`, and the class. -/
theorem mainLoopND_ok [Nontrivial R] (hsolve : SolverOK solve) (htop : TopOK solve N.toDR)
    (hB : BasisOK solve N.toDR)
    (hbasis : N.ndBasis = (List.range (N.n + 1)).flatMap (ndBlock solve N.toDR))
    (hblk : ∀ i, i < N.n + 1 → NDBlockOK solve N.toDR i (ndBlock solve N.toDR i))
    (h : FrobNDIn solve N p T ei m prec lo var) (cnt : Nat) :
    ∀ st : FrobState R, cnt + 1 ≤ m + prec - 1 → NDMainInv N p m prec ei lo (cnt + 1) st →
      st.last = CVec.mk' N.basis.length (fun _ => 0) →
      ∃ st', downTo 0 (frobPassND var solve N p T ei m prec) (cnt + 1) st = .ok st' ∧
        st'.fact = (((p * (m + prec - 1) - 1).factorial : Nat) : R) ∧
        StandsFor N.toDR st'.last (cls N.toDR (tailPoly N.toDR p m prec ei 0)) := by
  induction cnt with
  | zero =>
    intro st h1 h2 h3
    obtain ⟨st', a1, a2⟩ := frobPassND_last hsolve htop hB hbasis hblk h h2 h3
    refine ⟨st', ?_, a2⟩
    rw [downTo]
    show frobPassND var solve N p T ei m prec 1 st >>= _ = _
    rw [a1]; rfl
  | succ cnt ih =>
    intro st h1 h2 h3
    obtain ⟨st1, a1, a2, a3⟩ := frobPassND_big h (e := cnt + 1) (by omega) h1 h2
    obtain ⟨st', b1, b2⟩ := ih st1 (by omega) a2 (by rw [a3, h3])
    refine ⟨st', ?_, b2⟩
    rw [downTo]
    show frobPassND var solve N p T ei m prec (0 + (cnt + 1) + 1) st >>= _ = _
    rw [Nat.zero_add, a1]; exact b1

end

section

variable {R : Type} [CommRing R] [DecidableEq R] [Nontrivial R] {solve : Solver R}

/-- The sum of the terms is cohomologous to the vector computed by the loops. -/
theorem frobCoreND_class {p' p n d : Nat} {f : MonMap R} {N : ND R}
    (hC : ConstructedND solve p' f n d N) (hn : 1 ≤ n) (hp : 1 ≤ p) {var : NDVar R} {coord prec : Nat} {ei : IVec}
    (hc : N.basis[coord]? = some ei) (hprec : 1 ≤ prec) {lo : Nat → Fin (N.n + 1) → ℤ}
    (hv : NDVarOK N p (poleOrder n d ei) prec ei lo var)
    {T : List (MonMap R)} (hT : TableOK n d f T) (hTl : prec ≤ T.length) :
    ∃ F, frobCoreND var solve N p T ei (poleOrder n d ei) prec = .ok F ∧ F.len = N.basis.length ∧
      (∃ c : Nat → R, (∀ r, r < N.basis.length → F.e r = (poleFact N.toDR r : R) * c r) ∧
        tailPoly N.toDR p (poleOrder n d ei) prec ei 0 -
          ∑ r ∈ Finset.range N.basis.length, c r • xpow R (ev N.n (N.basis.getD r [])) ∈ Ex (DRpoly N.toDR) N.d) ∧
      Cohomologous (toPoly (n + 1) f) d
        ((((p * (poleOrder n d ei + prec - 1) - 1).factorial : Nat) : R) •
          frobSeries (toPoly (n + 1) f) p (poleOrder n d ei) prec (ev n ei))
        (basisForm n d N.basis F.e) := by
  obtain ⟨rfl, rfl, hI⟩ := hC.init
  have hN := hI.nd (by omega)
  have hd := hN.dr.hd
  have hf : DRpoly N.toDR = toPoly (N.n + 1) f := by rw [DRpoly, hI.base.f_eq]
  obtain ⟨m1, m2, m3⟩ := basis_pole hI.base.basis (by omega) hc
  have hin : FrobNDIn solve N p T ei (poleOrder N.n N.d ei) prec lo var :=
    { nd := hN, p1 := hp, var_ok := hv,
      table := by rw [hI.base.f_eq]; exact hT, tlen := hTl, N1 := hprec, m1 := m1, elen := m3.1, enn := m3.2.1,
      esum := m3.2.2 }
  obtain ⟨cnt, hcnt⟩ : ∃ cnt, poleOrder N.n N.d ei + prec - 1 = cnt + 1 :=
    ⟨poleOrder N.n N.d ei + prec - 1 - 1, by omega⟩
  obtain ⟨st, a1, -, a3, c, a4, a5⟩ := mainLoopND_ok hC.solver hI.base.top hI.base.basis hI.blocks hI.block hin cnt
    ⟨1, [], CVec.mk' N.basis.length (fun _ => 0)⟩ (by omega)
    ⟨by rw [hcnt, phi_top]; simp, TermsOK.nil _ _ _ _, fun t ht => absurd ht (by simp), by
      rw [← hcnt, tailPoly_top]; simp⟩ rfl
  have a6 := cls_mem a5
  refine ⟨st.last, ?_, a3, ⟨c, a4, a6⟩, ?_⟩
  · rw [frobCoreND, hcnt, a1, Res.bind_ok]; rfl
  · have h5 := frob_toForms hI.base.ok hI.base.basis a4 a6
    rw [toForms_tail hI.base.ok hp m1 hprec m3.1 m3.2.2, hf] at h5
    exact h5

end

/-! ### The three variants -/

section

variable {R : Type} [CommRing R] [DecidableEq R]

omit [CommRing R] [DecidableEq R] in
theorem directionND_above {n d e : Nat} (hd : n < d) (u : IVec) (he : 1 < e) (hl : u.length = n + 1)
    (hs : u.sum = (e : Int) * d) (hpos : ∀ i, 0 < ev n u i) :
    ∃ v, directionND d u = .ok v ∧ IsTuple (n + 1) d v ∧ ∀ i, 0 < ev n u i - ev n v i := by
  obtain ⟨v, u', a1, a2, a3, a4, a5, a6, -⟩ := directionND_step hl (pos_of_ev hl (fun i => hpos i)) (d := d) (by
    rw [hs]
    have h1 : (2 : Int) * d ≤ e * d := by
      have : (2 : Int) ≤ e := by omega
      nlinarith
    omega)
  refine ⟨v, a1, a3, fun i => ?_⟩
  rw [a6]
  have := ev_pos a4 a5 i
  simp only [Pi.add_apply]
  omega

theorem varNDP_ok {solve : Solver R} {p' n d : Nat} {f : MonMap R} {N : ND R} (hC : ConstructedND solve p' f n d N)
    (hn : 1 ≤ n) (p : Nat) (batched : Bool) {m prec : Nat} {ei : IVec} (hm : 1 ≤ m) (he0 : NonNeg ei)
    (hb : ∀ j, j < prec → (djm m prec j).natAbs < 2 ^ 63) :
    NDVarOK N p m prec ei (fun _ _ => 0) (varNDP solve N p batched) where
  term := termNDP_ok hC hn p batched
  coef _ _ _ := rfl
  drop _ h := by cases h
  djm j hj := (by have := hb j hj; rw [djm_natAbs] at this; exact djm64_ok hm this)
  lo0 _ _ := le_refl 0
  loNew _ _ i := nonNeg_getD he0 i
  dir e u he hl hs hpos := by
    obtain ⟨h1, h2, hI⟩ := hC.init
    exact directionND_above (hI.nd (by omega)).dr.hd u he hl hs hpos

variable {q : Nat}

theorem djmMix_fits {m prec j : Nat} (hm : 1 ≤ m) (h : (djm m prec j).natAbs < 2 ^ 63) :
    djmMix m j prec = .ok (djm m prec j) := by
  rw [djm_natAbs] at h
  exact djmMix_ok hm (fun i h1 h2 => lt_of_le_of_lt (Finset.single_le_sum (f := dbin m j) (fun _ _ => Nat.zero_le _)
      (Finset.mem_Ico.2 ⟨h1, h2⟩)) h)

theorem coefZ_eq [NeZero q] (Dj : Int) (a fact : ZMod q) :
    ((Dj * liftZ a * liftZ fact : Int) : ZMod q) = (Dj : ZMod q) * a * fact := by
  push_cast
  rw [liftZ_cast, liftZ_cast]

theorem varNDZ_ok [NeZero q] {solve : Solver (ZMod q)} {p' n d : Nat} {f : MonMap (ZMod q)} {N : ND (ZMod q)}
    (hC : ConstructedND solve p' f n d N)
    (hn : 1 ≤ n) (hq : 1 < q) (p : Nat) (kind : LoopKind) {m prec : Nat} {ei : IVec} (hm : 1 ≤ m) (he0 : NonNeg ei)
    (hb : ∀ j, j < prec → (djm m prec j).natAbs < 2 ^ 63) :
    NDVarOK N p m prec ei (fun _ _ => 0) (varNDZ solve N p kind) where
  term := termNDZ_ok hC hn hq p kind
  coef Dj a fact := coefZ_eq Dj a fact
  drop _ h := by cases h
  djm j hj := djmMix_fits hm (hb j hj)
  lo0 _ _ := le_refl 0
  loNew _ _ i := nonNeg_getD he0 i
  dir e u he hl hs hpos := by
    obtain ⟨h1, h2, hI⟩ := hC.init
    exact directionND_above (hI.nd (by omega)).dr.hd u he hl hs hpos

theorem varNDFlint_ok [NeZero q] {solve : Solver (ZMod q)} {p' n d : Nat} {f : MonMap (ZMod q)} {N : ND (ZMod q)}
    (hC : ConstructedND solve p' f n d N)
    (hn : 1 ≤ n) (hq : 1 < q) {p : Nat} (hpq : p ≤ q) (hfl : FlintBatchOK q p n d solve N)
    {m prec : Nat} {ei : IVec} (hm : 1 ≤ m) (hl : ei.length = N.n + 1) (he0 : NonNeg ei)
    (hs : ei.sum = (m : Int) * N.d - (N.n + 1))
    (hb : ∀ j, j < prec → (djm m prec j).natAbs < 2 ^ 63) :
    NDVarOK N p m prec ei (fun e i => if m ≤ e then ev N.n ei i else 0) (varNDFlint solve N p) where
  term := termNDFlint_ok hC hn hq hpq hfl
  coef Dj a fact := coefZ_eq Dj a fact
  drop c h := of_decide_eq_true h
  djm j hj := djmMix_fits hm (hb j hj)
  lo0 e i := by
    split
    · exact nonNeg_getD he0 i
    · exact le_refl 0
  loNew e he i := by rw [if_pos he]
  dir e u he hul hus hab := by
    obtain ⟨h1, h2, hI⟩ := hC.init
    have hd := (hI.nd (by omega)).dr.hd
    have key : ∀ sh : IVec, sh.length = N.n + 1 → (∀ i, ev N.n sh i < ev N.n u i) →
        (N.d : Int) ≤ u.sum - (N.n + 1) - sh.sum →
        ∃ v, directionShift N.d u sh = .ok v ∧ IsTuple (N.n + 1) N.d v ∧ ∀ i, ev N.n sh i < ev N.n u i - ev N.n v i := by
      intro sh hshl hlt hsum
      obtain ⟨v, a1, a2, a3, a4⟩ := C30_direction_shift N.d u sh (by rw [hshl, hul])
        (fun i hi => hlt ⟨i, by omega⟩) (by simp only [deg, hul]; push_cast; omega)
      have hvl : v.length = N.n + 1 := by rw [a2, hul]
      refine ⟨v, a1, tuple_of_ev hvl (fun i => (a4 i (by have := i.2; omega)).1) ?_, fun i => (a4 i (by have := i.2; omega)).2⟩
      rw [sum_ev hvl]; exact a3
    show ∃ v, directionShift N.d u (if m < e then ei else List.replicate (N.n + 1) 0) = .ok v ∧ _
    by_cases hme : m < e
    · rw [if_pos hme]
      obtain ⟨v, a1, a2, a3⟩ := key ei hl (fun i => by have := hab i; rwa [if_pos hme.le] at this) (by
        rw [hus, hs]
        have : (m : Int) + 1 ≤ e := by omega
        nlinarith)
      refine ⟨v, a1, a2, fun i => ?_⟩
      rw [if_pos (by omega)]
      exact a3 i
    · rw [if_neg hme]
      have hz : ∀ i, ev N.n (List.replicate (N.n + 1) 0) i = 0 := fun i => getD_replicate_zero _ _
      obtain ⟨v, a1, a2, a3⟩ := key (List.replicate (N.n + 1) 0) (by simp) (fun i => by
          rw [hz]
          have h3 := hab i
          have h4 : (0 : Int) ≤ ev N.n ei i := nonNeg_getD he0 i
          split at h3 <;> omega) (by
        rw [hus]
        have h3 : (2 : Int) ≤ e := by omega
        have : ((List.replicate (N.n + 1) (0 : Int)).sum) = 0 := by simp
        rw [this]
        nlinarith)
      refine ⟨v, a1, a2, fun i => ?_⟩
      rw [if_neg (by omega)]
      have := a3 i
      rwa [hz] at this

/-- Both ways of dividing by the factorial agree. -/
theorem frobScalePAdic_eq {p : Nat} (hp : p.Prime) (n a : Nat) (F : CVec (ZMod q)) :
    frobScalePAdic p n a F = frobScale p n a F := by
  obtain ⟨v, t, e0, ht, hf⟩ := C09_factorial_p_adic (R := ZMod q) a p 1 hp (le_refl 1) (by omega)
  have hIcc : ∀ b : Nat, ∏ i ∈ Finset.Icc 1 b, i = b.factorial := by
    intro b
    induction b with
    | zero => simp
    | succ b ih => rw [Finset.prod_Icc_succ_top (by omega), ih, Nat.factorial_succ, mul_comm]
  rw [hIcc] at hf
  have hfact := Fact.mk hp
  have ht0 : t ≠ 0 := by rintro rfl; exact ht (dvd_zero p)
  have hv : padicValNat p a.factorial = v := by
    rw [← hf, padicValNat.mul (pow_ne_zero _ hp.ne_zero) ht0, padicValNat.prime_pow,
      padicValNat.eq_zero_of_not_dvd ht, add_zero]
  have hpv : ((p : Int) ^ v) ≠ 0 := pow_ne_zero _ (by exact_mod_cast hp.ne_zero)
  have e1 : (factorialR a 1 : Int) = (p : Int) ^ v * t := by
    rw [factorialR_one, ← hf]; push_cast; rfl
  have e2 : (factorialR a 1 : Int) / (p : Int) ^ v = t := by rw [e1, Int.mul_ediv_cancel_left _ hpv]
  have e3 : (factorialR a 1 : Int) % (p : Int) ^ v = 0 := by rw [e1, Int.mul_emod_right]
  have e4 : Int.gcd (t : Int) q = Nat.gcd ((t : ZMod q)).val q := by
    rw [Int.gcd_natCast_natCast, ZMod.val_natCast, Nat.gcd_comm t, ← Nat.gcd_rec]
  rw [frobScale, valuationOfFactorial_eq a p hp, hv, Res.bind_ok, frobScalePAdic, e0, Res.bind_ok]
  simp only [Int.toNat_natCast]
  rw [decide_eq_true e3, check_true, Res.bind_ok]
  simp only [e2, e4, Int.cast_natCast]

end

end Verif
