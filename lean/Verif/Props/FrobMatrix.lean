import Verif.Lemmas.FrobMatrix
import Verif.Props.Frob

/-!
Property C33: the columns of `frob_matrix_J`, and the order in which the loop runs.
-/

namespace Verif

open Spec MvPolynomial

section

variable {q : Nat} {solve : Solver (ZMod q)} {D : DR (ZMod q)} {p : Nat}

theorem frobMatrixJ_ok {pre : Bool} {order : List Nat} {T : List (MonMap (ZMod q))} {N : List Int}
    {r : CMat (ZMod q) × List (MonMap (ZMod q))} :
    frobMatrixJ solve D p pre order T N = .ok r ↔ D.n = N.length ∧
      ∃ T0 s, frobPrepare pre D.f T N = .ok T0 ∧
        order.foldlM (frobIter solve D p N) (T0, fun _ => CVec.mk' D.basis.length (fun _ => 0)) = .ok s ∧
        r = (⟨D.basis.length, D.basis.length, fun r c => (s.2 c).e r⟩, s.1) := by
  unfold frobMatrixJ
  constructor
  · intro h
    obtain ⟨_, h1, h⟩ := Res.bind_eq_ok.1 h
    obtain ⟨T0, h2, h⟩ := Res.bind_eq_ok.1 h
    obtain ⟨s, h3, h⟩ := Res.bind_eq_ok.1 h
    exact ⟨of_decide_eq_true (check_eq_ok.1 h1), T0, s, h2, h3, (Except.ok.inj h).symm⟩
  · rintro ⟨h1, T0, s, h2, h3, rfl⟩
    rw [decide_eq_true h1, check_true, Res.bind_ok, h2, Res.bind_ok, h3]
    rfl

/-- **C33 (the schedule).**  After the preparation made when there are several threads, any two orders of the
iterations give the same outcome: the same matrix and the same table of powers, or no result.  There is no
assumption on the object, the polynomial or the precisions. -/
theorem C33_schedule {o1 o2 : List Nat} (ho : o1.Perm o2) (T : List (MonMap (ZMod q))) (N : List Int)
    (r : CMat (ZMod q) × List (MonMap (ZMod q))) :
    frobMatrixJ solve D p true o1 T N = .ok r ↔ frobMatrixJ solve D p true o2 T N = .ok r := by
  suffices H : ∀ {o1 o2 : List Nat}, o1.Perm o2 → frobMatrixJ solve D p true o1 T N = .ok r →
      frobMatrixJ solve D p true o2 T N = .ok r from ⟨H ho, H ho.symm⟩
  intro o1 o2 ho h
  obtain ⟨h1, T0, s, h2, h3, h4⟩ := frobMatrixJ_ok.1 h
  have hlen : ∀ x ∈ N, x ≤ T0.length := by
    intro x hx
    unfold frobPrepare at h2
    rw [if_pos rfl, Res.bind_eq_ok] at h2
    obtain ⟨mx, m1, m2⟩ := h2
    have := maxVec_le m1 x hx
    have := computeFpow_length m2
    omega
  have hrun : ∀ order : List Nat, _ := fun order =>
    fold_rows (solve := solve) (D := D) (p := p) (N := N) (P := fun T => T = T0)
      (iterRow solve D p N T0) order (by rintro T i o - rfl; rfl)
      (by rintro T rows i s - rfl e; exact iter_table hlen e) T0
      (fun _ => CVec.mk' D.basis.length (fun _ => 0)) rfl
  obtain ⟨a1, a2, a3⟩ := (hrun o1).1 s h3
  obtain ⟨s', e'⟩ := (hrun o2).2 (fun i hi => a2 i (ho.mem_iff.2 hi))
  obtain ⟨b1, b2, b3⟩ := (hrun o2).1 s' e'
  have hs : s' = s := by
    refine Prod.ext (b1.trans a1.symm) (funext fun j => ?_)
    rw [b3, a3, rowOf_perm ho]
  exact frobMatrixJ_ok.2 ⟨h1, T0, s, h2, hs ▸ e', h4⟩

/-- A table made by some calls of `compute_fpow`. -/
def Reached (n : Nat) (f : MonMap (ZMod q)) (T : List (MonMap (ZMod q))) : Prop :=
  ∃ powers : List Int, powers.foldlM (computeFpow f) (fpowStart n) = .ok T

theorem Reached.compute {n d : Nat} {f : MonMap (ZMod q)} (hf : WFPoly (n + 1) f) (hd : ∀ e ∈ f, deg e.1 = d)
    {T : List (MonMap (ZMod q))} (h : Reached n f T) (power : Int) :
    ∃ T', computeFpow f T power = .ok T' := by
  obtain ⟨powers, h⟩ := h
  obtain ⟨S, a1, a2, -, -⟩ := fpowCalls_ok hf hd powers (tableOK_start n d f)
  rw [h] at a1
  obtain rfl := Except.ok.inj a1
  obtain ⟨S', b, -⟩ := computeFpow_ok hf hd a2 power
  exact ⟨_, b⟩

theorem Reached.step {n : Nat} {f : MonMap (ZMod q)} {T T' : List (MonMap (ZMod q))} (h : Reached n f T)
    {power : Int} (e : computeFpow f T power = .ok T') : Reached n f T' := by
  obtain ⟨powers, h⟩ := h
  exact ⟨powers ++ [power], by rw [List.foldlM_append, h, Res.bind_ok, List.foldlM_cons, e]; rfl⟩

theorem Reached.chain {n : Nat} {f : MonMap (ZMod q)} {T : List (MonMap (ZMod q))} (h : Reached n f T) :
    Chain n f T := h.elim fun powers h => Chain.calls powers h

/-- **C33 (calls made before).**  `frob_J` gives the same vector whatever calls were made before it. -/
theorem C33_frob_J_history [Nontrivial (ZMod q)] {p' n d : Nat} {f : MonMap (ZMod q)}
    (hC : Constructed solve p' f n d D) (kind : LoopKind) {T T' : List (MonMap (ZMod q))}
    (hT : Reached n f T) (hT' : Reached n f T')
    (coord N : Nat) (ei : IVec) (hc : D.basis[coord]? = some ei) (hn : n / p ≤ poleOrder n d ei + N - 1)
    (v : CVec (ZMod q)) (T1 : List (MonMap (ZMod q)))
    (h : frobFun (varZ solve D p kind) solve D p T coord N = .ok (v, T1)) :
    ∃ T2, frobFun (varZ solve D p kind) solve D p T' coord N = .ok (v, T2) := by
  obtain ⟨e1, e2, hI⟩ := hC.init
  obtain ⟨T2, h2⟩ := hT'.compute hC.wf hC.hom ((N : Int) - 1)
  exact ⟨T2, frobFun_table hc (by rw [e1, e2]; exact hn) (n := n) (by rw [hI.f_eq]; exact hT.chain)
    (by rw [hI.f_eq]; exact hT'.chain) (by rw [hI.f_eq]; exact h2) h⟩

theorem iterRow_eq {N : List Int} {T : List (MonMap (ZMod q))} {i : Nat} {b : IVec} (hd : 0 < D.d)
    (hb : D.basis[i]? = some b) (hm : 1 ≤ poleOrder D.n D.d b) {Ni : Int} (hNi : N[poleOrder D.n D.d b - 1]? = some Ni)
    (o : Option (CVec (ZMod q))) :
    iterRow solve D p N T i = .ok o ↔ (¬ 0 < Ni ∧ o = none) ∨
      (0 < Ni ∧ ∃ r, frobJ solve D p T i Ni.toNat = .ok r ∧ r.1.len = D.basis.length ∧ o = some r.1) := by
  have h1 : ((sumVec b + D.n + 1) / D.d).toNat = poleOrder D.n D.d b := poleOrder_sumVec _ _ _
  have h2 : iget N ((sumVec b + D.n + 1) / D.d - 1) = .ok Ni := by
    generalize hs : (sumVec b + D.n + 1) / (D.d : Int) = s at h1
    have h3 : (s - 1).toNat = poleOrder D.n D.d b - 1 := by omega
    rw [iget, if_neg (by omega), h3, aget, hNi]
  unfold iterRow
  have h3 : aget D.basis i = .ok b := by rw [aget, hb]
  rw [h3, Res.bind_ok, if_neg (by omega), h2, Res.bind_ok]
  by_cases hp : 0 < Ni
  · rw [if_pos hp]
    constructor
    · intro h
      obtain ⟨r, e1, h⟩ := Res.bind_eq_ok.1 h
      split at h
      · next hl => cases h; exact Or.inr ⟨hp, r, e1, hl, rfl⟩
      · cases h
    · rintro (⟨h, -⟩ | ⟨-, r, e1, hl, rfl⟩)
      · exact absurd hp h
      · rw [e1, Res.bind_ok, if_pos hl]; rfl
  · rw [if_neg hp]
    constructor
    · intro h; cases h; exact Or.inl ⟨hp, rfl⟩
    · rintro (⟨-, rfl⟩ | ⟨h, -⟩)
      · rfl
      · exact absurd h hp

/-- **C33 (the columns, with several threads).**  No assumption on the object, the polynomial or the precisions:
if the call returns, column `i` is zero when `N[m_i - 1] <= 0` and otherwise what `frob_J(i, N[m_i - 1])` returns
for the prepared table, which is the table left at the end. -/
theorem C33_columns_parallel {T : List (MonMap (ZMod q))} {order : List Nat}
    (ho : order.Perm (List.range D.basis.length)) (N : List Int) (r : CMat (ZMod q) × List (MonMap (ZMod q)))
    (h : frobMatrixJ solve D p true order T N = .ok r) (i : Nat) (b : IVec) (hb : D.basis[i]? = some b) :
    ∃ Ni, 1 ≤ poleOrder D.n D.d b ∧ N[poleOrder D.n D.d b - 1]? = some Ni ∧
      (Ni ≤ 0 → ∀ k, r.1.e k i = 0) ∧
      (0 < Ni → ∃ v, frobJ solve D p r.2 i Ni.toNat = .ok (v, r.2) ∧ v.len = D.basis.length ∧
        ∀ k, r.1.e k i = v.e k) := by
  obtain ⟨h1, T0, s, h2, h3, rfl⟩ := frobMatrixJ_ok.1 h
  have hlen : ∀ x ∈ N, x ≤ T0.length := by
    intro x hx
    unfold frobPrepare at h2
    rw [if_pos rfl, Res.bind_eq_ok] at h2
    obtain ⟨mx, m1, m2⟩ := h2
    have := maxVec_le m1 x hx
    have := computeFpow_length m2
    omega
  obtain ⟨a1, a2, a3⟩ := (fold_rows (solve := solve) (D := D) (p := p) (N := N) (P := fun T => T = T0)
      (iterRow solve D p N T0) order (by rintro T i o - rfl; rfl)
      (by rintro T rows i s - rfl e; exact iter_table hlen e) T0
      (fun _ => CVec.mk' D.basis.length (fun _ => 0)) rfl).1 s h3
  have hi : i < D.basis.length := (List.getElem?_eq_some_iff.1 hb).1
  have hmem : i ∈ order := ho.mem_iff.2 (List.mem_range.2 hi)
  obtain ⟨o, h4⟩ := a2 i hmem
  have hrow : s.2 i = o.getD (CVec.mk' D.basis.length (fun _ => 0)) := by
    rw [a3, rowOf, if_pos hmem, h4]
    rcases o with _ | v <;> rfl
  have h5 := h4
  unfold iterRow at h5
  have hb' : aget D.basis i = .ok b := by rw [aget, hb]
  rw [hb', Res.bind_ok] at h5
  split at h5
  · cases h5
  next hd =>
  obtain ⟨Ni, h6, -⟩ := Res.bind_eq_ok.1 h5
  have hs : ((sumVec b + D.n + 1) / D.d).toNat = poleOrder D.n D.d b := poleOrder_sumVec _ _ _
  have hm : 1 ≤ poleOrder D.n D.d b ∧ N[poleOrder D.n D.d b - 1]? = some Ni := by
    generalize (sumVec b + D.n + 1) / (D.d : Int) = z at h6 hs
    unfold iget at h6
    split at h6
    · cases h6
    · rw [show (z - 1).toNat = poleOrder D.n D.d b - 1 by omega, aget] at h6
      refine ⟨by omega, ?_⟩
      split at h6
      · next y hy => cases h6; exact hy
      · cases h6
  refine ⟨Ni, hm.1, hm.2, ?_⟩
  have h7 := (iterRow_eq (by omega) hb hm.1 hm.2 o).1 h4
  refine ⟨fun hle k => ?_, fun hp => ?_⟩
  · rcases h7 with ⟨-, rfl⟩ | ⟨hp, -⟩
    · show (s.2 i).e k = 0
      rw [hrow]
      simp [CVec.mk']
    · omega
  · rcases h7 with ⟨hp', -⟩ | ⟨-, r, e1, hl, rfl⟩
    · exact absurd hp hp'
    · refine ⟨r.1, ?_, hl, fun k => ?_⟩
      · have hT : r.2 = T0 := by
          have := iter_table (solve := solve) (D := D) (p := p) (N := N) hlen (rows := s.2) (i := i)
            (s := (r.2, upd s.2 i r.1)) (by
              unfold frobIter
              rw [hb', Res.bind_ok, if_neg hd, h6, Res.bind_ok, if_pos hp, e1, Res.bind_ok, if_pos hl]
              rfl)
          exact this
        show frobJ solve D p s.1 i Ni.toNat = .ok (r.1, s.1)
        rw [a1, e1, ← hT]
      · show (s.2 i).e k = _
        rw [hrow]
        rfl

/-- **C33 (the columns).**  For an object returned by the constructor, any table reached by earlier calls, with
or without the preparation and for any order of the iterations: if `frob_matrix_J(N)` returns, the matrix is
square of the size of the basis, column `i` is zero when `N[m_i - 1] <= 0` and otherwise the vector
`frob_J(i, N[m_i - 1])`, called on its own.  And it returns exactly if `N` has `n` entries and these calls return.
The precisions must not be so low that the powers of `f` beyond those asked for are needed
(`n/p <= m_i + N_i - 1`; see `C31_low_precision_wrong`). -/
theorem C33_columns [Nontrivial (ZMod q)] {p' n d : Nat} {f : MonMap (ZMod q)}
    (hC : Constructed solve p' f n d D) (hn : 1 ≤ n) {T : List (MonMap (ZMod q))} (hT : Reached n f T)
    (pre : Bool) {order : List Nat} (ho : order.Perm (List.range D.basis.length)) (N : List Int)
    (hhigh : ∀ b Ni, b ∈ D.basis → N[poleOrder n d b - 1]? = some Ni → 0 < Ni →
      n / p ≤ poleOrder n d b + Ni.toNat - 1) :
    (∀ r, frobMatrixJ solve D p pre order T N = .ok r →
      r.1.rows = D.basis.length ∧ r.1.cols = D.basis.length ∧ Reached n f r.2 ∧
      ∀ i b Ni, D.basis[i]? = some b → N[poleOrder n d b - 1]? = some Ni →
        (Ni ≤ 0 → ∀ k, r.1.e k i = 0) ∧
        (0 < Ni → ∃ v T', frobJ solve D p T i Ni.toNat = .ok (v, T') ∧ v.len = D.basis.length ∧
          ∀ k, r.1.e k i = v.e k)) ∧
    ((∃ r, frobMatrixJ solve D p pre order T N = .ok r) ↔
      N.length = n ∧ ∀ i b Ni, D.basis[i]? = some b → N[poleOrder n d b - 1]? = some Ni → 0 < Ni →
        ∃ r, frobJ solve D p T i Ni.toNat = .ok r) := by
  obtain ⟨rfl, rfl, hI⟩ := hC.init
  obtain rfl := hI.f_eq
  have hd : 0 < D.d := by have := hI.ok.hd; omega
  have hfin : ∀ M, finalMatJ solve D D.n = .ok M → M.rows = D.basis.length := by
    intro M hM
    obtain ⟨L, M', c, e, hF⟩ := finalMatJ_ok hC.solver hI.ok hI.basis D.n hn le_rfl
    rw [hM] at e
    obtain rfl := Except.ok.inj e
    exact hF.rows
  have hpole : ∀ i b, D.basis[i]? = some b → 1 ≤ poleOrder D.n D.d b ∧ poleOrder D.n D.d b ≤ D.n :=
    fun i b hb => ⟨(basis_pole hI.basis hd hb).1, (basis_pole hI.basis hd hb).2.1⟩
  -- one iteration, from any reached table
  have hiter : N.length = D.n → ∀ T1 T2 i o, i ∈ order → Reached D.n D.f T1 → Reached D.n D.f T2 →
      iterRow solve D p N T1 i = .ok o → iterRow solve D p N T2 i = .ok o := by
    intro hNl T1 T2 i o hi h1 h2 h
    have hi : i < D.basis.length := List.mem_range.1 (ho.mem_iff.1 hi)
    have hb : D.basis[i]? = some D.basis[i] := List.getElem?_eq_getElem hi
    obtain ⟨m1, m2⟩ := hpole i _ hb
    obtain ⟨Ni, hNi⟩ : ∃ Ni, N[poleOrder D.n D.d D.basis[i] - 1]? = some Ni :=
      ⟨N[poleOrder D.n D.d D.basis[i] - 1]'(by omega), List.getElem?_eq_getElem (by omega)⟩
    rw [iterRow_eq hd hb m1 hNi] at h ⊢
    rcases h with h | ⟨hp, r, e1, hl, rfl⟩
    · exact Or.inl h
    · obtain ⟨T', e2⟩ := h2.compute hC.wf hC.hom ((Ni.toNat : Int) - 1)
      exact Or.inr ⟨hp, (r.1, T'), frobFun_table hb (hhigh _ _ (List.getElem_mem hi) hNi hp) h1.chain h2.chain
        e2 e1, hl, rfl⟩
  have hrun : N.length = D.n → ∀ T0, Reached D.n D.f T0 → _ := fun hNl T0 hT0 =>
    fold_rows (solve := solve) (D := D) (p := p) (N := N) (P := Reached D.n D.f)
      (iterRow solve D p N T) order
      (fun T1 i o hi h1 => ⟨hiter hNl T1 T i o hi h1 hT, hiter hNl T T1 i o hi hT h1⟩)
      (by
        intro T1 rows i s hi h1 e
        obtain ⟨o, -, -, h | ⟨power, h⟩⟩ := frobIter_eq e
        · rw [h]; exact h1
        · exact h1.step h) T0 (fun _ => CVec.mk' D.basis.length (fun _ => 0)) hT0
  have hpre : ∀ T0, frobPrepare pre D.f T N = .ok T0 → Reached D.n D.f T0 := by
    intro T0 h
    unfold frobPrepare at h
    split at h
    · obtain ⟨mx, -, h⟩ := Res.bind_eq_ok.1 h
      exact hT.step h
    · cases h; exact hT
  constructor
  · intro r hr
    obtain ⟨h1, T0, s, h2, h3, rfl⟩ := frobMatrixJ_ok.1 hr
    obtain ⟨a1, a2, a3⟩ := (hrun h1.symm T0 (hpre T0 h2)).1 s h3
    refine ⟨rfl, rfl, a1, fun i b Ni hb hNi => ?_⟩
    have hi : i < D.basis.length := (List.getElem?_eq_some_iff.1 hb).1
    have hmem : i ∈ order := ho.mem_iff.2 (List.mem_range.2 hi)
    obtain ⟨o, h4⟩ := a2 i hmem
    have h5 := (iterRow_eq hd hb (hpole i b hb).1 hNi o).1 h4
    have hrow : s.2 i = o.getD (CVec.mk' D.basis.length (fun _ => 0)) := by
      rw [a3, rowOf, if_pos hmem, h4]
      rcases o with _ | v <;> rfl
    refine ⟨fun hle k => ?_, fun hp => ?_⟩
    · rcases h5 with ⟨-, rfl⟩ | ⟨hp, -⟩
      · show (s.2 i).e k = 0
        rw [hrow]
        simp [CVec.mk']
      · omega
    · rcases h5 with ⟨h, -⟩ | ⟨-, r, e1, hl, rfl⟩
      · exact absurd hp h
      · refine ⟨r.1, r.2, e1, hl, fun k => ?_⟩
        show (s.2 i).e k = _
        rw [hrow]
        rfl
  · constructor
    · rintro ⟨r, hr⟩
      obtain ⟨h1, T0, s, h2, h3, -⟩ := frobMatrixJ_ok.1 hr
      refine ⟨h1.symm, fun i b Ni hb hNi hp => ?_⟩
      obtain ⟨a1, a2, a3⟩ := (hrun h1.symm T0 (hpre T0 h2)).1 s h3
      have hi : i < D.basis.length := (List.getElem?_eq_some_iff.1 hb).1
      obtain ⟨o, h4⟩ := a2 i (ho.mem_iff.2 (List.mem_range.2 hi))
      rcases (iterRow_eq hd hb (hpole i b hb).1 hNi o).1 h4 with ⟨h, -⟩ | ⟨-, r, e1, -⟩
      · exact absurd hp h
      · exact ⟨r, e1⟩
    · rintro ⟨hNl, hall⟩
      obtain ⟨T0, hT0⟩ : ∃ T0, frobPrepare pre D.f T N = .ok T0 := by
        unfold frobPrepare
        split
        · rcases N with _ | ⟨x, xs⟩
          · simp at hNl; omega
          · rw [maxVec, Res.bind_ok]
            exact hT.compute hC.wf hC.hom _
        · exact ⟨T, rfl⟩
      obtain ⟨s, hs⟩ := (hrun hNl T0 (hpre T0 hT0)).2 (by
        intro i hi
        have hi : i < D.basis.length := List.mem_range.1 (ho.mem_iff.1 hi)
        have hb : D.basis[i]? = some D.basis[i] := List.getElem?_eq_getElem hi
        obtain ⟨m1, m2⟩ := hpole i _ hb
        obtain ⟨Ni, hNi⟩ : ∃ Ni, N[poleOrder D.n D.d D.basis[i] - 1]? = some Ni :=
          ⟨N[poleOrder D.n D.d D.basis[i] - 1]'(by omega), List.getElem?_eq_getElem (by omega)⟩
        by_cases hp : 0 < Ni
        · obtain ⟨r, hr⟩ := hall i _ Ni hb hNi hp
          exact ⟨some r.1, (iterRow_eq hd hb m1 hNi _).2 (Or.inr ⟨hp, r, hr, frobFun_len hfin hr, rfl⟩)⟩
        · exact ⟨none, (iterRow_eq hd hb m1 hNi _).2 (Or.inl ⟨hp, rfl⟩)⟩)
      exact ⟨_, frobMatrixJ_ok.2 ⟨hNl.symm, T0, s, hT0, hs, rfl⟩⟩

/-- **C33 (one thread or many).**  Under the same assumptions the matrix does not depend on the order of the
iterations, on the preparation, or on the calls made before. -/
theorem C33_threads [Nontrivial (ZMod q)] {p' n d : Nat} {f : MonMap (ZMod q)}
    (hC : Constructed solve p' f n d D) (hn : 1 ≤ n) {T T' : List (MonMap (ZMod q))} (hT : Reached n f T)
    (hT' : Reached n f T') (pre pre' : Bool) {order order' : List Nat}
    (ho : order.Perm (List.range D.basis.length)) (ho' : order'.Perm (List.range D.basis.length)) (N : List Int)
    (hhigh : ∀ b Ni, b ∈ D.basis → N[poleOrder n d b - 1]? = some Ni → 0 < Ni →
      n / p ≤ poleOrder n d b + Ni.toNat - 1)
    (r : CMat (ZMod q) × List (MonMap (ZMod q))) (h : frobMatrixJ solve D p pre order T N = .ok r) :
    ∃ r', frobMatrixJ solve D p pre' order' T' N = .ok r' ∧ r'.1.rows = r.1.rows ∧ r'.1.cols = r.1.cols ∧
      ∀ k i, i < D.basis.length → r'.1.e k i = r.1.e k i := by
  obtain ⟨a1, a2⟩ := C33_columns hC hn hT pre ho N hhigh
  obtain ⟨b1, b2⟩ := C33_columns hC hn hT' pre' ho' N hhigh
  obtain ⟨hNl, hall⟩ := a2.1 ⟨r, h⟩
  obtain ⟨e1, e2, hI⟩ := hC.init
  have hd : 0 < D.d := by have := hI.ok.hd; omega
  have hhist : ∀ {T T' : List (MonMap (ZMod q))}, Reached n f T → Reached n f T' → ∀ {i b Ni}, D.basis[i]? = some b →
      N[poleOrder n d b - 1]? = some Ni → 0 < Ni → ∀ {r}, frobJ solve D p T i Ni.toNat = .ok r →
      ∃ T2, frobJ solve D p T' i Ni.toNat = .ok (r.1, T2) := by
    intro T T' hT hT' i b Ni hb hNi hp r hr
    exact C33_frob_J_history hC .poly hT hT' i _ b hb (hhigh b Ni (List.mem_of_getElem? hb) hNi hp) r.1 r.2 hr
  obtain ⟨r', hr'⟩ := b2.2 ⟨hNl, fun i b Ni hb hNi hp => by
    obtain ⟨v, hv⟩ := hall i b Ni hb hNi hp
    obtain ⟨T2, h2⟩ := hhist hT hT' hb hNi hp hv
    exact ⟨_, h2⟩⟩
  obtain ⟨c1, c2, -, c3⟩ := a1 r h
  obtain ⟨d1, d2, -, d3⟩ := b1 r' hr'
  refine ⟨r', hr', d1.trans c1.symm, d2.trans c2.symm, fun k i hi => ?_⟩
  have hb : D.basis[i]? = some D.basis[i] := List.getElem?_eq_getElem hi
  have hm := basis_pole hI.basis hd hb
  rw [e1, e2] at hm
  have hNi : N[poleOrder n d D.basis[i] - 1]? = some _ := List.getElem?_eq_getElem (by omega)
  by_cases hp : 0 < N[poleOrder n d D.basis[i] - 1]
  · obtain ⟨v, T1, f1, -, f2⟩ := (c3 i _ _ hb hNi).2 hp
    obtain ⟨v', T1', g1, -, g2⟩ := (d3 i _ _ hb hNi).2 hp
    obtain ⟨T2, h2⟩ := hhist hT hT' hb hNi hp f1
    rw [g1] at h2
    rw [f2, g2, show v' = v from (Prod.ext_iff.1 (Except.ok.inj h2)).1]
  · rw [(c3 i _ _ hb hNi).1 (by omega), (d3 i _ _ hb hNi).1 (by omega)]

end

section

variable {p : Nat} [hprime : Fact p.Prime] {K : Nat}

/-- **C33 and C47 together.**  Each column of the matrix with a positive precision is the coordinate vector of
the Frobenius series of its basis element, times `p^(n-1)` (`FrobColumn`).  Missing, as in
`C47_frob_J_partial`: the cases with `n/p > m`. -/
theorem C33_matrix_class_partial (hK : 1 ≤ K) {solve : Solver (ZMod (p ^ K))} {p' n d : Nat}
    {f : MonMap (ZMod (p ^ K))} {D : DR (ZMod (p ^ K))} (hC : Constructed solve p' f n d D) (hn : 1 ≤ n)
    (hlow : ∀ b ∈ D.basis, n / p ≤ poleOrder n d b)
    {T : List (MonMap (ZMod (p ^ K)))} (hT : Reached n f T) (pre : Bool) {order : List Nat}
    (ho : order.Perm (List.range D.basis.length)) (N : List Int)
    (hN : ∀ Ni ∈ N, ∀ i j : Nat, j ≤ i → (i : Int) < Ni → i.choose j < 2 ^ 63)
    (r : CMat (ZMod (p ^ K)) × List (MonMap (ZMod (p ^ K))))
    (h : frobMatrixJ solve D p pre order T N = .ok r) (i : Nat) (b : IVec) (Ni : Nat) (hb : D.basis[i]? = some b)
    (hNi : N[poleOrder n d b - 1]? = some (Ni : Int)) (hpos : 0 < Ni)
    (hbig : ∀ j, j < Ni → poleOrder n d b + j ≤ n / p → (djm (poleOrder n d b) Ni j).natAbs < 2 ^ 63) :
    FrobColumn (toPoly (n + 1) f) d p D.basis (poleOrder n d b) Ni (ev n b) (fun k => r.1.e k i) := by
  have := nontrivial_pow (p := p) hK
  obtain ⟨a1, -⟩ := C33_columns (p := p) hC hn hT pre ho N (fun b Ni hb _ hp => by have := hlow b hb; omega)
  obtain ⟨v, T', c1, -, c2⟩ := ((a1 r h).2.2.2 i b Ni hb hNi).2 (by omega)
  obtain ⟨powers, hpow⟩ := hT
  rw [Int.toNat_natCast] at c1
  have := ((C47_frob_J_partial hK hC hn .poly i Ni b hb hpos (hlow b (List.mem_of_getElem? hb))
    (fun i j hj hi => hN Ni (List.mem_of_getElem? hNi) i j hj (by omega)) hbig powers T hpow).1 _ c1).2.2
  have hfun : (fun k => r.1.e k i) = v.e := funext c2
  rw [hfun]
  exact this

local instance : Fact (Nat.Prime 5) := ⟨by norm_num⟩

/-- The elliptic curve modulo 25 with precisions `[2, 0]`: the matrix is computed, for one thread and for the
two orders with several threads. -/
example : ∃ (la : LinAlg (ZMod 5)) (D : DR (ZMod (5 ^ 2))) (T : List (MonMap (ZMod (5 ^ 2)))),
    Constructed (padicSolver 5 2 la true 2) 5 exCurve 2 3 D ∧ Reached 2 exCurve T ∧ D.basis.length = 2 ∧
    (∃ r, frobMatrixJ (padicSolver 5 2 la true 2) D 5 false [0, 1] T [2, 0] = .ok r) ∧
    (∃ r, frobMatrixJ (padicSolver 5 2 la true 2) D 5 true [0, 1] T [2, 0] = .ok r) ∧
    (∃ r, frobMatrixJ (padicSolver 5 2 la true 2) D 5 true [1, 0] T [2, 0] = .ok r) := by
  obtain ⟨la, hla⟩ := exists_linAlg (ZMod 5)
  obtain ⟨D, h, hb⟩ := exCurve_padic la hla true
  obtain ⟨T, hT, -⟩ := C29_fpow_table h.wf h.hom [3, 1]
  have hTr : Reached 2 exCurve T := ⟨_, hT⟩
  have hlen : D.basis.length = 2 := by rw [hb]; rfl
  have := nontrivial_pow (p := 5) (N := 2) (by norm_num)
  have key : ∀ pre order, order.Perm (List.range D.basis.length) →
      ∃ r, frobMatrixJ (padicSolver 5 2 la true 2) D 5 pre order T [2, 0] = .ok r := by
    intro pre order ho
    refine (C33_columns h (by norm_num) hTr pre ho [2, 0] (fun _ _ _ _ _ => ?_)).2.2 ⟨rfl, ?_⟩
    · rw [show 2 / 5 = 0 from rfl]; exact Nat.zero_le _
    · intro i b Ni hbi hNi hp
      have hi : i < 2 := by rw [← hlen]; exact (List.getElem?_eq_some_iff.1 hbi).1
      rw [hb] at hbi
      interval_cases i
      · obtain rfl : [0, 0, 0] = b := by simpa using hbi
        obtain rfl : (2 : Int) = Ni := by
          rw [show poleOrder 2 3 [0, 0, 0] = 1 by decide] at hNi
          simpa using hNi
        refine (C47_frob_J_partial (by norm_num) h (by norm_num) .poly 0 2 [0, 0, 0] (by rw [hb]; rfl) (by norm_num)
          (by decide) ?_ ?_ _ T hT).2.1 (by decide +kernel)
        · intro i j hj hi
          interval_cases i <;> interval_cases j <;> decide
        · intro j _ hj
          exact absurd hj (by rw [show 2 / 5 = 0 from rfl, show poleOrder 2 3 [0, 0, 0] = 1 by decide]; omega)
      · obtain rfl : [1, 1, 1] = b := by simpa using hbi
        obtain rfl : (0 : Int) = Ni := by
          rw [show poleOrder 2 3 [1, 1, 1] = 2 by decide] at hNi
          simpa using hNi
        omega
  refine ⟨la, D, T, h, hTr, hlen, key _ _ ?_, key _ _ ?_, key _ _ ?_⟩ <;> rw [hlen]
  · exact List.Perm.refl _
  · exact List.Perm.refl _
  · exact List.Perm.swap 0 1 []

end

end Verif
