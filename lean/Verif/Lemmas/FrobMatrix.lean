import Verif.Model.FrobMatrix
import Verif.Lemmas.FrobFun

/-! The Frobenius functions read the table of powers only, and only below `N`; the order of the iterations of
`frob_matrix_J`. -/

namespace Verif

open Spec

section

variable {R : Type} [CommRing R]

/-- Each entry of a table is the previous one times `f`. -/
structure Chain (n : Nat) (f : MonMap R) (T : List (MonMap R)) : Prop where
  zero : T[0]? = some [(List.replicate (n + 1) 0, 1)]
  succ : ∀ k P, T[k + 1]? = some P → ∃ Q, T[k]? = some Q ∧ mulPoly Q f = .ok P

theorem Chain.unique {n : Nat} {f : MonMap R} {T T' : List (MonMap R)} (h : Chain n f T) (h' : Chain n f T') :
    ∀ (k : Nat) {P P' : MonMap R}, T[k]? = some P → T'[k]? = some P' → P = P'
  | 0, P, P', e, e' => by
      rw [h.zero] at e; rw [h'.zero] at e'
      exact (Option.some.inj e).symm.trans (Option.some.inj e')
  | k + 1, P, P', e, e' => by
      obtain ⟨Q, a, b⟩ := h.succ k P e
      obtain ⟨Q', a', b'⟩ := h'.succ k P' e'
      rw [h.unique h' k a a', b'] at b
      exact (Except.ok.inj b).symm

theorem chain_start (n : Nat) (f : MonMap R) : Chain n f (fpowStart n) :=
  ⟨rfl, fun k P h => by simp [fpowStart] at h⟩

theorem Chain.loop {n : Nat} {f : MonMap R} (cnt : Nat) : ∀ {T T' : List (MonMap R)}, Chain n f T →
    fpowLoop f cnt T = .ok T' → Chain n f T' := by
  induction cnt with
  | zero => intro T T' h e; cases e; exact h
  | succ cnt ih =>
    intro T T' h e
    rw [fpowLoop] at e
    rcases hl : T.getLast? with _ | P
    · rw [hl] at e; cases e
    rw [hl] at e
    simp only at e
    obtain ⟨Y, e1, e2⟩ := Res.bind_eq_ok.1 e
    have hpos : 0 < T.length := by
      rcases T with _ | ⟨a, T⟩
      · cases hl
      · simp
    rw [List.getLast?_eq_getElem?] at hl
    refine ih ⟨?_, ?_⟩ e2
    · rw [List.getElem?_append_left hpos]; exact h.zero
    · intro k P' hk
      rcases Nat.lt_trichotomy (k + 1) T.length with hlt | heq | hgt
      · rw [List.getElem?_append_left hlt] at hk
        obtain ⟨Q, a, b⟩ := h.succ k P' hk
        exact ⟨Q, by rw [List.getElem?_append_left (by omega)]; exact a, b⟩
      · rw [List.getElem?_append_right (by omega), heq, Nat.sub_self] at hk
        simp only [List.getElem?_cons_zero, Option.some.injEq] at hk
        subst hk
        refine ⟨P, ?_, e1⟩
        rw [List.getElem?_append_left (by omega)]
        rw [← hl]; congr 1; omega
      · rw [List.getElem?_eq_none (by simp; omega)] at hk
        cases hk

theorem Chain.compute {n : Nat} {f : MonMap R} {T T' : List (MonMap R)} (h : Chain n f T) {power : Int}
    (e : computeFpow f T power = .ok T') : Chain n f T' ∧ power < T'.length := by
  unfold computeFpow at e
  split at e
  · obtain ⟨T1, e1, e2⟩ := Res.bind_eq_ok.1 e
    obtain ⟨_, hc, e3⟩ := Res.bind_eq_ok.1 e2
    cases e3
    have := of_decide_eq_true (check_eq_ok.1 hc)
    exact ⟨h.loop _ e1, by omega⟩
  · cases e; exact ⟨h, by omega⟩

theorem Chain.calls {n : Nat} {f : MonMap R} (powers : List Int) {T : List (MonMap R)}
    (h : powers.foldlM (computeFpow f) (fpowStart n) = .ok T) : Chain n f T :=
  foldlM_inv (P := Chain n f) (fun _ _ _ _ h e => (h.compute e).1) (chain_start n f) h

theorem Chain.aget_eq {n : Nat} {f : MonMap R} {T T' : List (MonMap R)} (h : Chain n f T) (h' : Chain n f T')
    {k : Nat} (hk : k < T.length) (hk' : k < T'.length) : aget T k = aget T' k := by
  rw [aget_of_lt _ _ hk, aget_of_lt _ _ hk',
    h.unique h' k (List.getElem?_eq_getElem hk) (List.getElem?_eq_getElem hk')]

theorem computeFpow_of_lt {f : MonMap R} {T : List (MonMap R)} {power : Int} (h : power < T.length) :
    computeFpow f T power = .ok T := by
  rw [computeFpow, if_neg (by omega)]

theorem computeFpow_length {f : MonMap R} {T T' : List (MonMap R)} {power : Int}
    (e : computeFpow f T power = .ok T') : power < T'.length := by
  unfold computeFpow at e
  split at e
  · obtain ⟨T1, e1, e2⟩ := Res.bind_eq_ok.1 e
    obtain ⟨_, hc, e3⟩ := Res.bind_eq_ok.1 e2
    cases e3
    have := of_decide_eq_true (check_eq_ok.1 hc)
    omega
  · cases e; omega

end

theorem downTo_congr {S : Type} {lo hi : Nat} {body body' : Nat → S → Res S}
    (h : ∀ e s, lo < e → e ≤ hi → body e s = body' e s) : ∀ (cnt : Nat) (s : S), lo + cnt ≤ hi →
    downTo lo body cnt s = downTo lo body' cnt s
  | 0, _, _ => rfl
  | cnt + 1, s, hc => by
      rw [downTo, downTo, h (lo + cnt + 1) s (by omega) hc]
      refine congrArg (fun k => _ >>= k) (funext fun s' => ?_)
      exact downTo_congr h cnt s' (by omega)

/-- The loops read the table below `N` only. -/
theorem frobCore_table {R : Type} [CommRing R] [DecidableEq R] {var : FrobVar R} {solve : Solver R} {D : DR R}
    {p : Nat} {T T' : List (MonMap R)} {coord N : Nat} {ei : IVec} (hc : D.basis[coord]? = some ei)
    (hn : D.n / p ≤ poleOrder D.n D.d ei + N - 1) (h : ∀ j, j < N → aget T j = aget T' j) :
    frobCore var solve D p T coord N = frobCore var solve D p T' coord N := by
  have hi : coord < D.basis.length := (List.getElem?_eq_some_iff.1 hc).1
  have he : D.basis[coord] = ei := (List.getElem?_eq_some_iff.1 hc).2
  have hm : ((sumVec ei + D.n + 1) / D.d).toNat = poleOrder D.n D.d ei := by rw [poleOrder, sumVec_eq_sum]; rfl
  unfold frobCore
  rcases Nat.eq_zero_or_pos N with h0 | hN
  · rw [decide_eq_false (by omega)]; rfl
  rw [decide_eq_true hN, aget_of_lt _ _ hi, he]
  simp only [check_true, Res.bind_ok, hm]
  split
  · rfl
  refine congrArg (fun k => _ >>= k) (funext fun len => ?_)
  split
  · rfl
  have hread : ∀ e, poleOrder D.n D.d ei ≤ e → e ≤ poleOrder D.n D.d ei + N - 1 →
      aget T (e - poleOrder D.n D.d ei) = aget T' (e - poleOrder D.n D.d ei) := fun e h1 h2 => h _ (by omega)
  have hmain : ∀ st, downTo (D.n / p) (frobPass var D p T ei (poleOrder D.n D.d ei) N)
        (poleOrder D.n D.d ei + N - 1 - D.n / p) st =
      downTo (D.n / p) (frobPass var D p T' ei (poleOrder D.n D.d ei) N)
        (poleOrder D.n D.d ei + N - 1 - D.n / p) st := by
    intro st
    refine downTo_congr (hi := poleOrder D.n D.d ei + N - 1) (fun e s _ h2 => ?_) _ st
      (by rw [Nat.add_sub_cancel' hn])
    have : frobNew var D p T ei (poleOrder D.n D.d ei) N e s =
        frobNew var D p T' ei (poleOrder D.n D.d ei) N e s := by
      unfold frobNew
      split
      · next hme => rw [hread e hme h2]
      · rfl
    rw [frobPass, frobPass, this]
  have hlast : ∀ lo s, downTo lo (frobLastPass var solve D p T ei (poleOrder D.n D.d ei) N) (D.n / p - lo) s =
      downTo lo (frobLastPass var solve D p T' ei (poleOrder D.n D.d ei) N) (D.n / p - lo) s := by
    intro lo s
    rcases Nat.le_total (D.n / p) lo with hle | hle
    · rw [Nat.sub_eq_zero_of_le hle]; rfl
    refine downTo_congr (hi := poleOrder D.n D.d ei + N - 1) (fun e s _ h2 => ?_) _ s
      (by rw [Nat.add_sub_cancel' hle]; exact hn)
    unfold frobLastPass
    by_cases hme : poleOrder D.n D.d ei ≤ e
    · simp only [if_pos hme]
      have : frobSmall var solve D p T ei (poleOrder D.n D.d ei) N e s.fact s.F s.G0 =
          frobSmall var solve D p T' ei (poleOrder D.n D.d ei) N e s.fact s.F s.G0 := by
        unfold frobSmall
        rw [hread e hme h2]
      rw [this]
    · simp only [if_neg hme]
  simp only [hmain, hlast]

section

variable {q : Nat} {solve : Solver (ZMod q)} {D : DR (ZMod q)} {p : Nat}

/-- The value of `frob_J` does not depend on the calls made before. -/
theorem frobFun_table {var : FrobVar (ZMod q)} {T T' : List (MonMap (ZMod q))} {coord N : Nat} {ei : IVec}
    (hc : D.basis[coord]? = some ei) (hn : D.n / p ≤ poleOrder D.n D.d ei + N - 1) {n : Nat}
    (h : Chain n D.f T) (h' : Chain n D.f T') {r : CVec (ZMod q) × List (MonMap (ZMod q))}
    {T1 : List (MonMap (ZMod q))} (h1 : computeFpow D.f T' ((N : Int) - 1) = .ok T1)
    (e : frobFun var solve D p T coord N = .ok r) :
    frobFun var solve D p T' coord N = .ok (r.1, T1) := by
  unfold frobFun at e ⊢
  obtain ⟨_, c1, e⟩ := Res.bind_eq_ok.1 e
  obtain ⟨ei', c2, e⟩ := Res.bind_eq_ok.1 e
  obtain ⟨T2, c3, e⟩ := Res.bind_eq_ok.1 e
  obtain ⟨F, c4, e⟩ := Res.bind_eq_ok.1 e
  obtain ⟨F', c5, e⟩ := Res.bind_eq_ok.1 e
  cases e
  obtain ⟨k1, l1⟩ := h.compute c3
  obtain ⟨k2, l2⟩ := h'.compute h1
  rw [frobCore_table hc hn (fun j hj => k1.aget_eq k2 (by omega) (by omega))] at c4
  rw [c1, Res.bind_ok, c2, Res.bind_ok, h1, Res.bind_ok, c4, Res.bind_ok]
  exact Res.bind_eq_ok.2 ⟨F', c5, rfl⟩

/-- What one iteration does to a row. -/
def iterRow (solve : Solver (ZMod q)) (D : DR (ZMod q)) (p : Nat) (N : List Int) (T : List (MonMap (ZMod q)))
    (i : Nat) : Res (Option (CVec (ZMod q))) := do
  let b ← aget D.basis i
  if D.d = 0 then .error .ub
  else do
    let Ni ← iget N ((sumVec b + D.n + 1) / D.d - 1)
    if 0 < Ni then do
      let r ← frobJ solve D p T i Ni.toNat
      if r.1.len = D.basis.length then pure (some r.1) else .error .abort
    else pure none

/-- The effect on the rows. -/
def setRow (rows : Nat → CVec (ZMod q)) (i : Nat) : Option (CVec (ZMod q)) → Nat → CVec (ZMod q)
  | none => rows
  | some v => upd rows i v

theorem frobIter_eq {N : List Int} {T : List (MonMap (ZMod q))} {rows : Nat → CVec (ZMod q)} {i : Nat}
    {s : List (MonMap (ZMod q)) × (Nat → CVec (ZMod q))} (h : frobIter solve D p N (T, rows) i = .ok s) :
    ∃ o, iterRow solve D p N T i = .ok o ∧ s.2 = setRow rows i o ∧
      (s.1 = T ∨ ∃ power, computeFpow D.f T power = .ok s.1) := by
  unfold frobIter at h
  unfold iterRow
  obtain ⟨b, h1, h⟩ := Res.bind_eq_ok.1 h
  rw [h1, Res.bind_ok]
  split at h
  · cases h
  next hd =>
  rw [if_neg hd]
  obtain ⟨Ni, h2, h⟩ := Res.bind_eq_ok.1 h
  rw [h2, Res.bind_ok]
  split at h
  · next hp =>
    rw [if_pos hp]
    obtain ⟨r, h3, h⟩ := Res.bind_eq_ok.1 h
    rw [h3, Res.bind_ok]
    split at h
    · next hl =>
      rw [if_pos hl]
      cases h
      refine ⟨some r.1, rfl, rfl, Or.inr ⟨(Ni.toNat : Int) - 1, ?_⟩⟩
      unfold frobJ frobFun at h3
      obtain ⟨_, c1, e⟩ := Res.bind_eq_ok.1 h3
      obtain ⟨ei', c2, e⟩ := Res.bind_eq_ok.1 e
      obtain ⟨T2, c3, e⟩ := Res.bind_eq_ok.1 e
      obtain ⟨F, c4, e⟩ := Res.bind_eq_ok.1 e
      obtain ⟨F', c5, e⟩ := Res.bind_eq_ok.1 e
      cases e
      exact c3
    · cases h
  · next hp =>
    rw [if_neg hp]
    cases h
    exact ⟨none, rfl, rfl, Or.inl rfl⟩

theorem frobIter_ok {N : List Int} {T : List (MonMap (ZMod q))} (rows : Nat → CVec (ZMod q)) {i : Nat}
    {o : Option (CVec (ZMod q))} (h : iterRow solve D p N T i = .ok o) :
    ∃ T', frobIter solve D p N (T, rows) i = .ok (T', setRow rows i o) := by
  unfold iterRow at h
  unfold frobIter
  obtain ⟨b, h1, h⟩ := Res.bind_eq_ok.1 h
  rw [h1, Res.bind_ok]
  split at h
  · cases h
  next hd =>
  rw [if_neg hd]
  obtain ⟨Ni, h2, h⟩ := Res.bind_eq_ok.1 h
  rw [h2, Res.bind_ok]
  split at h
  · next hp =>
    rw [if_pos hp]
    obtain ⟨r, h3, h⟩ := Res.bind_eq_ok.1 h
    rw [h3, Res.bind_ok]
    split at h
    · next hl =>
      rw [if_pos hl]
      cases h
      exact ⟨r.2, rfl⟩
    · cases h
  · next hp =>
    rw [if_neg hp]
    cases h
    exact ⟨T, rfl⟩

/-- The rows after all iterations. -/
def rowOf (g : Nat → Res (Option (CVec (ZMod q)))) (order : List Nat) (rows : Nat → CVec (ZMod q)) (j : Nat) :
    CVec (ZMod q) :=
  if j ∈ order then match g j with
    | .ok (some v) => v
    | _ => rows j
  else rows j

theorem fold_rows {N : List Int} (P : List (MonMap (ZMod q)) → Prop) (g : Nat → Res (Option (CVec (ZMod q))))
    (order : List Nat)
    (h : ∀ T i o, i ∈ order → P T → (iterRow solve D p N T i = .ok o ↔ g i = .ok o))
    (hP : ∀ T rows i s, i ∈ order → P T → frobIter solve D p N (T, rows) i = .ok s → P s.1) :
    ∀ T rows, P T →
      (∀ s, order.foldlM (frobIter solve D p N) (T, rows) = .ok s →
        P s.1 ∧ (∀ i ∈ order, ∃ o, g i = .ok o) ∧ ∀ j, s.2 j = rowOf g order rows j) ∧
      ((∀ i ∈ order, ∃ o, g i = .ok o) → ∃ s, order.foldlM (frobIter solve D p N) (T, rows) = .ok s) := by
  induction order with
  | nil =>
    intro T rows hT
    refine ⟨fun s e => ?_, fun _ => ⟨_, rfl⟩⟩
    cases e
    exact ⟨hT, by simp, fun j => by simp [rowOf]⟩
  | cons i order ih =>
    intro T rows hT
    have ih := ih (fun T j o hj => h T j o (List.mem_cons_of_mem _ hj))
      (fun T rows j s hj => hP T rows j s (List.mem_cons_of_mem _ hj))
    constructor
    · intro s e
      rw [List.foldlM_cons, Res.bind_eq_ok] at e
      obtain ⟨s1, e1, e2⟩ := e
      obtain ⟨o, a1, a2, -⟩ := frobIter_eq e1
      have hs := hP T rows i s1 (List.mem_cons_self ..) hT e1
      have hg := (h T i o (List.mem_cons_self ..) hT).1 a1
      obtain ⟨b1, b2, b3⟩ := (ih s1.1 s1.2 hs).1 s e2
      refine ⟨b1, ?_, fun j => ?_⟩
      · intro j hj
        rcases List.mem_cons.1 hj with rfl | hj
        · exact ⟨o, hg⟩
        · exact b2 j hj
      · rw [b3 j, a2]
        unfold rowOf
        by_cases hji : j = i
        · subst hji
          rw [hg, if_pos (List.mem_cons_self ..)]
          rcases o with _ | v <;> simp [setRow, upd]
        · have : setRow rows i o j = rows j := by
            rcases o with _ | v
            · rfl
            · simp [setRow, upd, hji]
          rw [this]
          simp [List.mem_cons, hji]
    · intro hall
      obtain ⟨o, ho⟩ := hall i (List.mem_cons_self ..)
      obtain ⟨T', e1⟩ := frobIter_ok rows ((h T i o (List.mem_cons_self ..) hT).2 ho)
      have hs := hP T rows i _ (List.mem_cons_self ..) hT e1
      obtain ⟨s, e2⟩ := (ih T' (setRow rows i o) hs).2 (fun j hj => hall j (List.mem_cons_of_mem _ hj))
      exact ⟨s, by rw [List.foldlM_cons, e1, Res.bind_ok]; exact e2⟩

theorem rowOf_perm {g : Nat → Res (Option (CVec (ZMod q)))} {o1 o2 : List Nat} (h : o1.Perm o2)
    (rows : Nat → CVec (ZMod q)) (j : Nat) : rowOf g o1 rows j = rowOf g o2 rows j := by
  unfold rowOf
  simp only [h.mem_iff]

theorem foldl_max_le (l : List Int) : ∀ x : Int, x ≤ l.foldl (fun m y => if y > m then y else m) x ∧
    ∀ y ∈ l, y ≤ l.foldl (fun m y => if y > m then y else m) x := by
  induction l with
  | nil => intro x; simp
  | cons a l ih =>
    intro x
    obtain ⟨h1, h2⟩ := ih (if a > x then a else x)
    rw [List.foldl_cons]
    refine ⟨le_trans ?_ h1, ?_⟩
    · split <;> omega
    · intro y hy
      rcases List.mem_cons.1 hy with rfl | hy
      · refine le_trans ?_ h1
        split <;> omega
      · exact h2 y hy

theorem maxVec_le {N : List Int} {mx : Int} (h : maxVec N = .ok mx) : ∀ y ∈ N, y ≤ mx := by
  rcases N with _ | ⟨x, xs⟩
  · cases h
  cases h
  intro y hy
  rcases List.mem_cons.1 hy with rfl | hy
  · exact (foldl_max_le xs y).1
  · exact (foldl_max_le xs x).2 y hy

theorem iget_mem {N : List Int} {i x : Int} (h : iget N i = .ok x) : x ∈ N := by
  unfold iget at h
  split at h
  · cases h
  · unfold aget at h
    split at h
    · next y hy => cases h; exact List.mem_of_getElem? hy
    · cases h

/-- After the preparation no iteration changes the table. -/
theorem iter_table {N : List Int} {T0 : List (MonMap (ZMod q))} (hT : ∀ x ∈ N, x ≤ T0.length)
    {rows : Nat → CVec (ZMod q)} {i : Nat} {s : List (MonMap (ZMod q)) × (Nat → CVec (ZMod q))}
    (h : frobIter solve D p N (T0, rows) i = .ok s) : s.1 = T0 := by
  unfold frobIter at h
  obtain ⟨b, h1, h⟩ := Res.bind_eq_ok.1 h
  split at h
  · cases h
  obtain ⟨Ni, h2, h⟩ := Res.bind_eq_ok.1 h
  split at h
  · next hp =>
    obtain ⟨r, h3, h⟩ := Res.bind_eq_ok.1 h
    split at h
    · cases h
      unfold frobJ frobFun at h3
      obtain ⟨_, c1, e⟩ := Res.bind_eq_ok.1 h3
      obtain ⟨ei', c2, e⟩ := Res.bind_eq_ok.1 e
      obtain ⟨T2, c3, e⟩ := Res.bind_eq_ok.1 e
      obtain ⟨F, c4, e⟩ := Res.bind_eq_ok.1 e
      obtain ⟨F', c5, e⟩ := Res.bind_eq_ok.1 e
      cases e
      have := hT _ (iget_mem h2)
      rw [computeFpow_of_lt (by show _ < (T0.length : Int); omega)] at c3
      exact (Except.ok.inj c3).symm
    · cases h
  · cases h; rfl

theorem downTo_inv {S : Type} {lo : Nat} {body : Nat → S → Res S} (P : S → Prop)
    (h : ∀ e s s', P s → body e s = .ok s' → P s') : ∀ (cnt : Nat) {s s' : S}, P s →
    downTo lo body cnt s = .ok s' → P s'
  | 0, s, s', h0, e => by cases e; exact h0
  | cnt + 1, s, s', h0, e => by
      rw [downTo, Res.bind_eq_ok] at e
      obtain ⟨s1, e1, e2⟩ := e
      exact downTo_inv P h cnt (h _ _ _ h0 e1) e2

/-- The length of the result. -/
theorem frobFun_len {var : FrobVar (ZMod q)} {T : List (MonMap (ZMod q))} {coord N : Nat}
    (hfin : ∀ M, finalMatJ solve D D.n = .ok M → M.rows = D.basis.length)
    {r : CVec (ZMod q) × List (MonMap (ZMod q))}
    (e : frobFun var solve D p T coord N = .ok r) : r.1.len = D.basis.length := by
  unfold frobFun at e
  obtain ⟨_, c1, e⟩ := Res.bind_eq_ok.1 e
  obtain ⟨ei', c2, e⟩ := Res.bind_eq_ok.1 e
  obtain ⟨T2, c3, e⟩ := Res.bind_eq_ok.1 e
  obtain ⟨F, c4, e⟩ := Res.bind_eq_ok.1 e
  obtain ⟨F', c5, e⟩ := Res.bind_eq_ok.1 e
  cases e
  have h1 : F'.len = F.len := by
    unfold frobScale at c5
    obtain ⟨val, b1, c5⟩ := Res.bind_eq_ok.1 c5
    obtain ⟨_, b2, c5⟩ := Res.bind_eq_ok.1 c5
    split at c5
    · cases c5
    simp only at c5
    split at c5
    · cases c5; rfl
    · obtain ⟨_, b3, c5⟩ := Res.bind_eq_ok.1 c5
      cases c5; rfl
  show F'.len = _
  rw [h1]
  unfold frobCore at c4
  obtain ⟨_, _, c4⟩ := Res.bind_eq_ok.1 c4
  obtain ⟨ei, _, c4⟩ := Res.bind_eq_ok.1 c4
  split at c4
  · cases c4
  obtain ⟨len, _, c4⟩ := Res.bind_eq_ok.1 c4
  split at c4
  · cases c4
  obtain ⟨st, _, c4⟩ := Res.bind_eq_ok.1 c4
  obtain ⟨M, hM, c4⟩ := Res.bind_eq_ok.1 c4
  obtain ⟨F0, hF, c4⟩ := Res.bind_eq_ok.1 c4
  obtain ⟨s, hs, c4⟩ := Res.bind_eq_ok.1 c4
  obtain ⟨_, _, c4⟩ := Res.bind_eq_ok.1 c4
  cases c4
  have h0 : F0.len = D.basis.length := by
    rw [← hfin M hM]
    unfold CMat.mulVec at hF
    split at hF
    · cases hF; rfl
    · cases hF
  refine downTo_inv (P := fun s : LastState (ZMod q) => s.F.len = D.basis.length) ?_ _ h0 hs
  intro e s s' hl he
  unfold frobLastPass at he
  obtain ⟨_, _, he⟩ := Res.bind_eq_ok.1 he
  split at he
  · obtain ⟨r, hr, he⟩ := Res.bind_eq_ok.1 he
    cases he
    unfold frobSmall at hr
    obtain ⟨_, _, hr⟩ := Res.bind_eq_ok.1 hr
    obtain ⟨_, _, hr⟩ := Res.bind_eq_ok.1 hr
    obtain ⟨_, _, hr⟩ := Res.bind_eq_ok.1 hr
    obtain ⟨_, _, hr⟩ := Res.bind_eq_ok.1 hr
    obtain ⟨_, _, hr⟩ := Res.bind_eq_ok.1 hr
    obtain ⟨_, _, hr⟩ := Res.bind_eq_ok.1 hr
    obtain ⟨F', hF', hr⟩ := Res.bind_eq_ok.1 hr
    cases hr
    unfold CVec.add at hF'
    split at hF'
    · cases hF'; exact hl
    · cases hF'
  · cases he; exact hl

end

end Verif
