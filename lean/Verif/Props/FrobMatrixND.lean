import Verif.Lemmas.FrobMatrixND
import Verif.Props.FrobMatrix
import Verif.Props.FrobND

/-!
Property C51: the columns of `frob_matrix_ND`, and the order in which the loop runs.
-/

namespace Verif

open Spec MvPolynomial

section

variable {q : Nat} {solve : Solver (ZMod q)} {N : ND (ZMod q)} {p : Nat}

theorem frobMatrixND_ok {pre : Bool} {order : List Nat} {T : List (MonMap (ZMod q))} {prec : List Int}
    {r : CMat (ZMod q) × List (MonMap (ZMod q))} :
    frobMatrixND solve N p pre order T prec = .ok r ↔ N.n = prec.length ∧
      ∃ T0 s, frobPrepare pre N.f T prec = .ok T0 ∧
        order.foldlM (mIter (frobNDFlint solve N p) N.n N.d N.basis prec)
          (T0, fun _ => CVec.mk' N.basis.length (fun _ => 0)) = .ok s ∧
        r = (⟨N.basis.length, N.basis.length, fun r c => (s.2 c).e r⟩, s.1) := by
  unfold frobMatrixND
  rw [frobIterND_eq]
  constructor
  · intro h
    obtain ⟨_, h1, h⟩ := Res.bind_eq_ok.1 h
    obtain ⟨T0, h2, h⟩ := Res.bind_eq_ok.1 h
    obtain ⟨s, h3, h⟩ := Res.bind_eq_ok.1 h
    exact ⟨of_decide_eq_true (check_eq_ok.1 h1), T0, s, h2, h3, (Except.ok.inj h).symm⟩
  · rintro ⟨h1, T0, s, h2, h3, rfl⟩
    rw [decide_eq_true h1, check_true, Res.bind_ok, h2, Res.bind_ok, h3]
    rfl

theorem prepare_len {f : MonMap (ZMod q)} {T T0 : List (MonMap (ZMod q))} {prec : List Int}
    (h2 : frobPrepare true f T prec = .ok T0) : ∀ x ∈ prec, x ≤ T0.length := by
  intro x hx
  unfold frobPrepare at h2
  rw [if_pos rfl, Res.bind_eq_ok] at h2
  obtain ⟨mx, m1, m2⟩ := h2
  have := maxVec_le m1 x hx
  have := computeFpow_length m2
  omega

/-- After the preparation the iterations are independent. -/
theorem prepared_run {T0 : List (MonMap (ZMod q))} {prec : List Int} (hlen : ∀ x ∈ prec, x ≤ T0.length)
    (order : List Nat) (rows : Nat → CVec (ZMod q)) :
    (∀ s, order.foldlM (mIter (frobNDFlint solve N p) N.n N.d N.basis prec) (T0, rows) = .ok s →
      s.1 = T0 ∧ (∀ i ∈ order, ∃ o, mRow (frobNDFlint solve N p) N.n N.d N.basis prec T0 i = .ok o) ∧
        ∀ j, s.2 j = rowOf (mRow (frobNDFlint solve N p) N.n N.d N.basis prec T0) order rows j) ∧
    ((∀ i ∈ order, ∃ o, mRow (frobNDFlint solve N p) N.n N.d N.basis prec T0 i = .ok o) →
      ∃ s, order.foldlM (mIter (frobNDFlint solve N p) N.n N.d N.basis prec) (T0, rows) = .ok s) :=
  mFold (f := N.f) frobNDFlint_fills (P := fun T => T = T0) _ order
    (by rintro T i o - rfl; rfl)
    (by
      rintro T T' x hx rfl e
      have := hlen x hx
      rw [computeFpow_of_lt (by omega)] at e
      exact (Except.ok.inj e).symm) T0 rows rfl

/-- **C51 (the schedule).**  After the preparation made when there are several threads, any two orders of the
iterations give the same outcome: the same matrix and the same table of powers, or no result.  There is no
assumption on the object, the polynomial or the precisions. -/
theorem C51_schedule {o1 o2 : List Nat} (ho : o1.Perm o2) (T : List (MonMap (ZMod q))) (prec : List Int)
    (r : CMat (ZMod q) × List (MonMap (ZMod q))) :
    frobMatrixND solve N p true o1 T prec = .ok r ↔ frobMatrixND solve N p true o2 T prec = .ok r := by
  suffices H : ∀ {o1 o2 : List Nat}, o1.Perm o2 → frobMatrixND solve N p true o1 T prec = .ok r →
      frobMatrixND solve N p true o2 T prec = .ok r from ⟨H ho, H ho.symm⟩
  intro o1 o2 ho h
  obtain ⟨h1, T0, s, h2, h3, h4⟩ := frobMatrixND_ok.1 h
  have hrun := fun o => prepared_run (solve := solve) (N := N) (p := p) (prepare_len h2) o
    (fun _ => CVec.mk' N.basis.length (fun _ => 0))
  obtain ⟨a1, a2, a3⟩ := (hrun o1).1 s h3
  obtain ⟨s', e'⟩ := (hrun o2).2 (fun i hi => a2 i (ho.mem_iff.2 hi))
  obtain ⟨b1, b2, b3⟩ := (hrun o2).1 s' e'
  have hs : s' = s := by
    refine Prod.ext (b1.trans a1.symm) (funext fun j => ?_)
    rw [b3, a3, rowOf_perm ho]
  exact frobMatrixND_ok.2 ⟨h1, T0, s, h2, hs ▸ e', h4⟩

/-- **C51 (calls made before).**  `frob_ND`, `frob_ND_ZZ` and `frob_ND_ZZ_p` give the same vector whatever calls were
made before. -/
theorem C51_frob_ND_history {p' n d : Nat} {f : MonMap (ZMod q)}
    (hC : ConstructedND solve p' f n d N) {T T' : List (MonMap (ZMod q))} (hT : Reached n f T) (hT' : Reached n f T')
    (coord prec : Nat) (v : CVec (ZMod q)) (T1 : List (MonMap (ZMod q))) :
    (frobNDFlint solve N p T coord prec = .ok (v, T1) → ∃ T2, frobNDFlint solve N p T' coord prec = .ok (v, T2)) ∧
    (∀ kind, frobNDZ solve N p kind T coord prec = .ok (v, T1) →
      ∃ T2, frobNDZ solve N p kind T' coord prec = .ok (v, T2)) ∧
    (∀ batched, frobNDP solve N p batched T coord prec = .ok (v, T1) →
      ∃ T2, frobNDP solve N p batched T' coord prec = .ok (v, T2)) := by
  obtain ⟨e1, e2, hI⟩ := hC.init
  obtain ⟨T2, h2⟩ := hT'.compute hC.wf hC.hom ((prec : Int) - 1)
  have hc : Chain n N.f T := by rw [hI.base.f_eq]; exact hT.chain
  have hc' : Chain n N.f T' := by rw [hI.base.f_eq]; exact hT'.chain
  have h2 : computeFpow N.f T' ((prec : Int) - 1) = .ok T2 := by rw [hI.base.f_eq]; exact h2
  exact ⟨fun h => ⟨T2, frobFunND_table hc hc' h2 h⟩, fun kind h => ⟨T2, frobFunND_table hc hc' h2 h⟩,
    fun b h => ⟨T2, frobFunND_table hc hc' h2 h⟩⟩

theorem mRow_eq {prec : List Int} {T : List (MonMap (ZMod q))} {i : Nat} {b : IVec} (hd : 0 < N.d)
    (hb : N.basis[i]? = some b) (hm : 1 ≤ poleOrder N.n N.d b) {Ni : Int}
    (hNi : prec[poleOrder N.n N.d b - 1]? = some Ni) (o : Option (CVec (ZMod q))) :
    mRow (frobNDFlint solve N p) N.n N.d N.basis prec T i = .ok o ↔ (¬ 0 < Ni ∧ o = none) ∨
      (0 < Ni ∧ ∃ r, frobNDFlint solve N p T i Ni.toNat = .ok r ∧ r.1.len = N.basis.length ∧ o = some r.1) := by
  have h1 : ((sumVec b + N.n + 1) / N.d).toNat = poleOrder N.n N.d b := poleOrder_sumVec _ _ _
  have h2 : iget prec ((sumVec b + N.n + 1) / N.d - 1) = .ok Ni := by
    generalize hs : (sumVec b + N.n + 1) / (N.d : Int) = s at h1
    have h3 : (s - 1).toNat = poleOrder N.n N.d b - 1 := by omega
    rw [iget, if_neg (by omega), h3, aget, hNi]
  rw [mRow_ok_iff]
  constructor
  · rintro ⟨b', Ni', a1, -, a3, a4⟩
    rw [hb] at a1
    obtain rfl := Option.some.inj a1
    rw [h2] at a3
    obtain rfl := Except.ok.inj a3
    exact a4
  · intro h
    exact ⟨b, Ni, hb, by omega, h2, h⟩

/-- **C51 (the columns, with several threads).**  No assumption on the object, the polynomial or the precisions:
if the call returns, column `i` is zero when `N[m_i - 1] <= 0` and otherwise what `frob_ND(i, N[m_i - 1])` returns
for the prepared table, which is the table left at the end. -/
theorem C51_columns_parallel {T : List (MonMap (ZMod q))} {order : List Nat}
    (ho : order.Perm (List.range N.basis.length)) (prec : List Int) (r : CMat (ZMod q) × List (MonMap (ZMod q)))
    (h : frobMatrixND solve N p true order T prec = .ok r) (i : Nat) (b : IVec) (hb : N.basis[i]? = some b) :
    ∃ Ni, 1 ≤ poleOrder N.n N.d b ∧ prec[poleOrder N.n N.d b - 1]? = some Ni ∧
      (Ni ≤ 0 → ∀ k, r.1.e k i = 0) ∧
      (0 < Ni → ∃ v, frobNDFlint solve N p r.2 i Ni.toNat = .ok (v, r.2) ∧ v.len = N.basis.length ∧
        ∀ k, r.1.e k i = v.e k) := by
  obtain ⟨h1, T0, s, h2, h3, rfl⟩ := frobMatrixND_ok.1 h
  have hlen := prepare_len h2
  obtain ⟨a1, a2, a3⟩ := (prepared_run (solve := solve) (N := N) (p := p) hlen order
    (fun _ => CVec.mk' N.basis.length (fun _ => 0))).1 s h3
  have hi : i < N.basis.length := (List.getElem?_eq_some_iff.1 hb).1
  have hmem : i ∈ order := ho.mem_iff.2 (List.mem_range.2 hi)
  obtain ⟨o, h4⟩ := a2 i hmem
  have hrow : s.2 i = o.getD (CVec.mk' N.basis.length (fun _ => 0)) := by
    rw [a3, rowOf, if_pos hmem, h4]
    rcases o with _ | v <;> rfl
  obtain ⟨b', Ni, c1, hd, h6, h7⟩ := mRow_ok_iff.1 h4
  rw [hb] at c1
  obtain rfl := Option.some.inj c1
  have hs : ((sumVec b + N.n + 1) / N.d).toNat = poleOrder N.n N.d b := poleOrder_sumVec _ _ _
  have hm : 1 ≤ poleOrder N.n N.d b ∧ prec[poleOrder N.n N.d b - 1]? = some Ni := by
    generalize (sumVec b + N.n + 1) / (N.d : Int) = z at h6 hs
    unfold iget at h6
    split at h6
    · cases h6
    · rw [show (z - 1).toNat = poleOrder N.n N.d b - 1 by omega, aget] at h6
      refine ⟨by omega, ?_⟩
      split at h6
      · next y hy => cases h6; exact hy
      · cases h6
  refine ⟨Ni, hm.1, hm.2, fun hle k => ?_, fun hp => ?_⟩
  · rcases h7 with ⟨-, rfl⟩ | ⟨hp, -⟩
    · show (s.2 i).e k = 0
      rw [hrow]
      simp [CVec.mk']
    · omega
  · rcases h7 with ⟨hp', -⟩ | ⟨-, r, e1, hl, rfl⟩
    · exact absurd hp hp'
    · refine ⟨r.1, ?_, hl, fun k => ?_⟩
      · have hT := frobNDFlint_fills _ _ _ _ e1
        have := hlen Ni (iget_mem h6)
        rw [computeFpow_of_lt (by omega)] at hT
        show frobNDFlint solve N p s.1 i Ni.toNat = .ok (r.1, s.1)
        rw [a1, e1, Except.ok.inj hT]
      · show (s.2 i).e k = _
        rw [hrow]
        rfl

/-- **C51 (the columns).**  For an object returned by the constructor, any table reached by earlier calls, with
or without the preparation and for any order of the iterations: if `frob_matrix_ND(N)` returns, the matrix is
square of the size of the basis, column `i` is zero when `N[m_i - 1] <= 0` and otherwise the vector
`frob_ND(i, N[m_i - 1])`, called on its own.  And it returns exactly if `N` has `n` entries and these calls return.
(No restriction on the precisions, unlike C33.) -/
theorem C51_columns {p' n d : Nat} {f : MonMap (ZMod q)}
    (hC : ConstructedND solve p' f n d N) (hn : 1 ≤ n) {T : List (MonMap (ZMod q))} (hT : Reached n f T)
    (pre : Bool) {order : List Nat} (ho : order.Perm (List.range N.basis.length)) (prec : List Int) :
    (∀ r, frobMatrixND solve N p pre order T prec = .ok r →
      r.1.rows = N.basis.length ∧ r.1.cols = N.basis.length ∧ Reached n f r.2 ∧
      ∀ i b Ni, N.basis[i]? = some b → prec[poleOrder n d b - 1]? = some Ni →
        (Ni ≤ 0 → ∀ k, r.1.e k i = 0) ∧
        (0 < Ni → ∃ v T', frobNDFlint solve N p T i Ni.toNat = .ok (v, T') ∧ v.len = N.basis.length ∧
          ∀ k, r.1.e k i = v.e k)) ∧
    ((∃ r, frobMatrixND solve N p pre order T prec = .ok r) ↔
      prec.length = n ∧ ∀ i b Ni, N.basis[i]? = some b → prec[poleOrder n d b - 1]? = some Ni → 0 < Ni →
        ∃ r, frobNDFlint solve N p T i Ni.toNat = .ok r) := by
  have hhist := fun {T T'} hT hT' i k v T1 => (C51_frob_ND_history (p := p) hC (T := T) (T' := T') hT hT' i k v T1).1
  obtain ⟨rfl, rfl, hI⟩ := hC.init
  obtain rfl := hI.base.f_eq
  have hd : 0 < N.d := by have := hI.base.ok.hd; omega
  have hpole : ∀ i b, N.basis[i]? = some b → 1 ≤ poleOrder N.n N.d b ∧ poleOrder N.n N.d b ≤ N.n :=
    fun i b hb => ⟨(basis_pole hI.base.basis hd hb).1, (basis_pole hI.base.basis hd hb).2.1⟩
  -- one iteration, from any reached table
  have hiter : prec.length = N.n → ∀ T1 T2 i o, i ∈ order → Reached N.n N.f T1 → Reached N.n N.f T2 →
      mRow (frobNDFlint solve N p) N.n N.d N.basis prec T1 i = .ok o →
      mRow (frobNDFlint solve N p) N.n N.d N.basis prec T2 i = .ok o := by
    intro hNl T1 T2 i o hi h1 h2 h
    have hi : i < N.basis.length := List.mem_range.1 (ho.mem_iff.1 hi)
    have hb : N.basis[i]? = some N.basis[i] := List.getElem?_eq_getElem hi
    obtain ⟨m1, m2⟩ := hpole i _ hb
    obtain ⟨Ni, hNi⟩ : ∃ Ni, prec[poleOrder N.n N.d N.basis[i] - 1]? = some Ni :=
      ⟨prec[poleOrder N.n N.d N.basis[i] - 1]'(by omega), List.getElem?_eq_getElem (by omega)⟩
    rw [mRow_eq hd hb m1 hNi] at h ⊢
    rcases h with h | ⟨hp, r, e1, hl, rfl⟩
    · exact Or.inl h
    · obtain ⟨T', e2⟩ := hhist h1 h2 i _ r.1 r.2 e1
      exact Or.inr ⟨hp, (r.1, T'), e2, hl, rfl⟩
  have hrun : prec.length = N.n → ∀ T0, Reached N.n N.f T0 → _ := fun hNl T0 hT0 =>
    mFold (f := N.f) (frob := frobNDFlint solve N p) (n := N.n) (d := N.d) (basis := N.basis) (prec := prec)
      frobNDFlint_fills (P := Reached N.n N.f) (mRow (frobNDFlint solve N p) N.n N.d N.basis prec T) order
      (fun T1 i o hi h1 => ⟨hiter hNl T1 T i o hi h1 hT, hiter hNl T T1 i o hi hT h1⟩)
      (fun T1 T2 x _ h1 e => h1.step e) T0 (fun _ => CVec.mk' N.basis.length (fun _ => 0)) hT0
  have hpre : ∀ T0, frobPrepare pre N.f T prec = .ok T0 → Reached N.n N.f T0 := by
    intro T0 h
    unfold frobPrepare at h
    split at h
    · obtain ⟨mx, -, h⟩ := Res.bind_eq_ok.1 h
      exact hT.step h
    · cases h; exact hT
  constructor
  · intro r hr
    obtain ⟨h1, T0, s, h2, h3, rfl⟩ := frobMatrixND_ok.1 hr
    obtain ⟨a1, a2, a3⟩ := (hrun h1.symm T0 (hpre T0 h2)).1 s h3
    refine ⟨rfl, rfl, a1, fun i b Ni hb hNi => ?_⟩
    have hi : i < N.basis.length := (List.getElem?_eq_some_iff.1 hb).1
    have hmem : i ∈ order := ho.mem_iff.2 (List.mem_range.2 hi)
    obtain ⟨o, h4⟩ := a2 i hmem
    have h5 := (mRow_eq hd hb (hpole i b hb).1 hNi o).1 h4
    have hrow : s.2 i = o.getD (CVec.mk' N.basis.length (fun _ => 0)) := by
      rw [a3, rowOf, if_pos hmem, h4]
      rcases o with _ | v <;> rfl
    refine ⟨fun hle k => ?_, fun hp => ?_⟩
    · rcases h5 with ⟨-, rfl⟩ | ⟨hp, -⟩
      · show (s.2 i).e k = 0
        rw [hrow]
        simp [CVec.mk']
      · omega
    · rcases h5 with ⟨h, -⟩ | ⟨-, r, e1, hl, rfl⟩
      · exact absurd hp h
      · refine ⟨r.1, r.2, e1, hl, fun k => ?_⟩
        show (s.2 i).e k = _
        rw [hrow]
        rfl
  · constructor
    · rintro ⟨r, hr⟩
      obtain ⟨h1, T0, s, h2, h3, -⟩ := frobMatrixND_ok.1 hr
      refine ⟨h1.symm, fun i b Ni hb hNi hp => ?_⟩
      obtain ⟨a1, a2, a3⟩ := (hrun h1.symm T0 (hpre T0 h2)).1 s h3
      have hi : i < N.basis.length := (List.getElem?_eq_some_iff.1 hb).1
      obtain ⟨o, h4⟩ := a2 i (ho.mem_iff.2 (List.mem_range.2 hi))
      rcases (mRow_eq hd hb (hpole i b hb).1 hNi o).1 h4 with ⟨h, -⟩ | ⟨-, r, e1, -⟩
      · exact absurd hp h
      · exact ⟨r, e1⟩
    · rintro ⟨hNl, hall⟩
      obtain ⟨T0, hT0⟩ : ∃ T0, frobPrepare pre N.f T prec = .ok T0 := by
        unfold frobPrepare
        split
        · rcases prec with _ | ⟨x, xs⟩
          · simp at hNl; omega
          · rw [maxVec, Res.bind_ok]
            exact hT.compute hC.wf hC.hom _
        · exact ⟨T, rfl⟩
      obtain ⟨s, hs⟩ := (hrun hNl T0 (hpre T0 hT0)).2 (by
        intro i hi
        have hi : i < N.basis.length := List.mem_range.1 (ho.mem_iff.1 hi)
        have hb : N.basis[i]? = some N.basis[i] := List.getElem?_eq_getElem hi
        obtain ⟨m1, m2⟩ := hpole i _ hb
        obtain ⟨Ni, hNi⟩ : ∃ Ni, prec[poleOrder N.n N.d N.basis[i] - 1]? = some Ni :=
          ⟨prec[poleOrder N.n N.d N.basis[i] - 1]'(by omega), List.getElem?_eq_getElem (by omega)⟩
        by_cases hp : 0 < Ni
        · obtain ⟨r, hr⟩ := hall i _ Ni hb hNi hp
          exact ⟨some r.1, (mRow_eq hd hb m1 hNi _).2 (Or.inr ⟨hp, r, hr,
            frobFunND_len frobScalePAdic_len hr, rfl⟩)⟩
        · exact ⟨none, (mRow_eq hd hb m1 hNi _).2 (Or.inl ⟨hp, rfl⟩)⟩)
      exact ⟨_, frobMatrixND_ok.2 ⟨hNl.symm, T0, s, hT0, hs, rfl⟩⟩

/-- **C51 (one thread or many).**  Under the same assumptions the matrix does not depend on the order of the
iterations, on the preparation, or on the calls made before. -/
theorem C51_threads {p' n d : Nat} {f : MonMap (ZMod q)}
    (hC : ConstructedND solve p' f n d N) (hn : 1 ≤ n) {T T' : List (MonMap (ZMod q))} (hT : Reached n f T)
    (hT' : Reached n f T') (pre pre' : Bool) {order order' : List Nat}
    (ho : order.Perm (List.range N.basis.length)) (ho' : order'.Perm (List.range N.basis.length)) (prec : List Int)
    (r : CMat (ZMod q) × List (MonMap (ZMod q))) (h : frobMatrixND solve N p pre order T prec = .ok r) :
    ∃ r', frobMatrixND solve N p pre' order' T' prec = .ok r' ∧ r'.1.rows = r.1.rows ∧ r'.1.cols = r.1.cols ∧
      ∀ k i, i < N.basis.length → r'.1.e k i = r.1.e k i := by
  obtain ⟨a1, a2⟩ := C51_columns (p := p) hC hn hT pre ho prec
  obtain ⟨b1, b2⟩ := C51_columns (p := p) hC hn hT' pre' ho' prec
  obtain ⟨hNl, hall⟩ := a2.1 ⟨r, h⟩
  obtain ⟨e1, e2, hI⟩ := hC.init
  have hd : 0 < N.d := by have := hI.base.ok.hd; omega
  obtain ⟨r', hr'⟩ := b2.2 ⟨hNl, fun i b Ni hb hNi hp => by
    obtain ⟨v, hv⟩ := hall i b Ni hb hNi hp
    obtain ⟨T2, h2⟩ := (C51_frob_ND_history (p := p) hC hT hT' i _ v.1 v.2).1 hv
    exact ⟨_, h2⟩⟩
  obtain ⟨c1, c2, -, c3⟩ := a1 r h
  obtain ⟨d1, d2, -, d3⟩ := b1 r' hr'
  refine ⟨r', hr', d1.trans c1.symm, d2.trans c2.symm, fun k i hi => ?_⟩
  have hb : N.basis[i]? = some N.basis[i] := List.getElem?_eq_getElem hi
  have hm := basis_pole hI.base.basis hd hb
  rw [e1, e2] at hm
  have hNi : prec[poleOrder n d N.basis[i] - 1]? = some _ := List.getElem?_eq_getElem (by omega)
  by_cases hp : 0 < prec[poleOrder n d N.basis[i] - 1]
  · obtain ⟨v, T1, f1, -, f2⟩ := (c3 i _ _ hb hNi).2 hp
    obtain ⟨v', T1', g1, -, g2⟩ := (d3 i _ _ hb hNi).2 hp
    obtain ⟨T2, h2⟩ := (C51_frob_ND_history (p := p) hC hT hT' i _ v T1).1 f1
    rw [g1] at h2
    rw [f2, g2, show v' = v from (Prod.ext_iff.1 (Except.ok.inj h2)).1]
  · rw [(c3 i _ _ hb hNi).1 (by omega), (d3 i _ _ hb hNi).1 (by omega)]

end

section

variable {p : Nat} [hprime : Fact p.Prime] {K : Nat}

/-- **C51 and C49 together.**  Each column of the matrix with a positive precision is the coordinate vector of the
Frobenius series of its basis element, times `p^(n-1)` (`FrobColumn`).  Missing, as in
`C49_frob_ND_flint_partial`: polynomials for which the finite differences are wrong. -/
theorem C51_matrix_class_partial (hK : 1 ≤ K) {solve : Solver (ZMod (p ^ K))} {p' n d : Nat}
    {f : MonMap (ZMod (p ^ K))} {N : ND (ZMod (p ^ K))} (hC : ConstructedND solve p' f n d N) (hn : 1 ≤ n)
    (hfl : FlintBatchOK (p ^ K) p n d solve N)
    {T : List (MonMap (ZMod (p ^ K)))} (hT : Reached n f T) (pre : Bool) {order : List Nat}
    (ho : order.Perm (List.range N.basis.length)) (prec : List Int)
    (r : CMat (ZMod (p ^ K)) × List (MonMap (ZMod (p ^ K))))
    (h : frobMatrixND solve N p pre order T prec = .ok r) (i : Nat) (b : IVec) (Ni : Nat) (hb : N.basis[i]? = some b)
    (hNi : prec[poleOrder n d b - 1]? = some (Ni : Int)) (hpos : 0 < Ni)
    (hbig : ∀ j, j < Ni → (djm (poleOrder n d b) Ni j).natAbs < 2 ^ 63) :
    FrobColumn (toPoly (n + 1) f) d p N.basis (poleOrder n d b) Ni (ev n b) (fun k => r.1.e k i) := by
  obtain ⟨a1, -⟩ := C51_columns (p := p) hC hn hT pre ho prec
  obtain ⟨v, T', c1, -, c2⟩ := ((a1 r h).2.2.2 i b Ni hb hNi).2 (by omega)
  obtain ⟨powers, hpow⟩ := hT
  rw [Int.toNat_natCast] at c1
  have := ((C49_frob_ND_flint_partial hK hC hn hfl i Ni b hb hpos hbig powers T hpow).1 _ c1).2.2
  have hfun : (fun k => r.1.e k i) = v.e := funext c2
  rw [hfun]
  exact this

local instance : Fact (Nat.Prime 2) := ⟨by norm_num⟩

/-- `x^3 + y^3` modulo 8 with `p = 2` and precision `[1]`: the matrix is computed, for one thread and for the two orders
with several threads. -/
example : ∃ (la : LinAlg (ZMod 2)) (N : ND (ZMod (2 ^ 3))) (T : List (MonMap (ZMod (2 ^ 3)))),
    ConstructedND (padicSolver 2 3 la true 3) 2 exBinary 1 3 N ∧ Reached 1 exBinary T ∧ N.basis.length = 2 ∧
    FlintBatchOK (2 ^ 3) 2 1 3 (padicSolver 2 3 la true 3) N ∧
    (∃ r, frobMatrixND (padicSolver 2 3 la true 3) N 2 false [0, 1] T [1] = .ok r) ∧
    (∃ r, frobMatrixND (padicSolver 2 3 la true 3) N 2 true [0, 1] T [1] = .ok r) ∧
    (∃ r, frobMatrixND (padicSolver 2 3 la true 3) N 2 true [1, 0] T [1] = .ok r) := by
  obtain ⟨la, hla⟩ := exists_linAlg (ZMod 2)
  obtain ⟨N, h, hb⟩ := exBinary_padicND la hla true
  obtain ⟨T, hT, -⟩ := C29_fpow_table h.wf h.hom [3, 1]
  have hTr : Reached 1 exBinary T := ⟨_, hT⟩
  have hlen : N.basis.length = 2 := by rw [hb]; rfl
  have hfl : FlintBatchOK (2 ^ 3) 2 1 3 (padicSolver 2 3 la true 3) N := Or.inr (Or.inl (by norm_num))
  have key : ∀ pre order, order.Perm (List.range N.basis.length) →
      ∃ r, frobMatrixND (padicSolver 2 3 la true 3) N 2 pre order T [1] = .ok r := by
    intro pre order ho
    refine (C51_columns h (by norm_num) hTr pre ho [1]).2.2 ⟨rfl, ?_⟩
    intro i b Ni hbi hNi hp
    have hi : i < 2 := by rw [← hlen]; exact (List.getElem?_eq_some_iff.1 hbi).1
    have hbi' := hbi
    rw [hb] at hbi
    have hpo : poleOrder 1 3 b = 1 := by
      interval_cases i
      · obtain rfl : [0, 1] = b := by simpa using hbi
        decide
      · obtain rfl : [1, 0] = b := by simpa using hbi
        decide
    rw [hpo] at hNi
    obtain rfl : (1 : Int) = Ni := by simpa using hNi
    refine (C49_frob_ND_flint_partial (by norm_num) h (by norm_num) hfl i 1 b hbi' (by norm_num) ?_ _ T hT).2.1 ?_
    · rw [hpo]; decide +kernel
    · rw [hpo]; decide
  refine ⟨la, N, T, h, hTr, hlen, hfl, key _ _ ?_, key _ _ ?_, key _ _ ?_⟩ <;> rw [hlen]
  · exact List.Perm.refl _
  · exact List.Perm.refl _
  · exact List.Perm.swap 0 1 []

end

end Verif
