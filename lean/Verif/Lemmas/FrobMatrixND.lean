import Verif.Lemmas.FrobNDMain
import Verif.Lemmas.FrobMatrix

/-! The order of the iterations of `frob_matrix_ND`, for any function of the shape of `frob_ND`. -/

namespace Verif

open Spec

section

variable {q : Nat}

/-- A function of the shape of `frob_ND(coordinate, N)`: it gets the table of powers and returns the new one. -/
abbrev FrobF (q : Nat) := List (MonMap (ZMod q)) → Nat → Nat → Res (CVec (ZMod q) × List (MonMap (ZMod q)))

/-- One iteration, for any such function. -/
def mIter (frob : FrobF q) (n d : Nat) (basis : List IVec) (prec : List Int)
    (s : List (MonMap (ZMod q)) × (Nat → CVec (ZMod q))) (i : Nat) :
    Res (List (MonMap (ZMod q)) × (Nat → CVec (ZMod q))) := do
  let b ← aget basis i
  if d = 0 then .error .ub
  else do
    let Ni ← iget prec ((sumVec b + n + 1) / d - 1)
    if 0 < Ni then do
      let r ← frob s.1 i Ni.toNat
      if r.1.len = basis.length then pure (r.2, upd s.2 i r.1) else .error .abort
    else pure s

theorem frobIterND_eq (solve : Solver (ZMod q)) (N : ND (ZMod q)) (p : Nat) (prec : List Int) :
    frobIterND solve N p prec = mIter (frobNDFlint solve N p) N.n N.d N.basis prec := rfl

/-- What one iteration does to a row. -/
def mRow (frob : FrobF q) (n d : Nat) (basis : List IVec) (prec : List Int) (T : List (MonMap (ZMod q)))
    (i : Nat) : Res (Option (CVec (ZMod q))) := do
  let b ← aget basis i
  if d = 0 then .error .ub
  else do
    let Ni ← iget prec ((sumVec b + n + 1) / d - 1)
    if 0 < Ni then do
      let r ← frob T i Ni.toNat
      if r.1.len = basis.length then pure (some r.1) else .error .abort
    else pure none

/-- The function fills the table as far as it reads it. -/
def FillsTable (f : MonMap (ZMod q)) (frob : FrobF q) : Prop :=
  ∀ T i N r, frob T i N = .ok r → computeFpow f T ((N : Int) - 1) = .ok r.2

variable {frob : FrobF q} {n d : Nat} {f : MonMap (ZMod q)} {basis : List IVec} {prec : List Int}

theorem mIter_ok_iff {T : List (MonMap (ZMod q))} {rows : Nat → CVec (ZMod q)} {i : Nat}
    {s : List (MonMap (ZMod q)) × (Nat → CVec (ZMod q))} :
    mIter frob n d basis prec (T, rows) i = .ok s ↔ ∃ b Ni, basis[i]? = some b ∧ d ≠ 0 ∧
      iget prec ((sumVec b + n + 1) / d - 1) = .ok Ni ∧
      ((¬ 0 < Ni ∧ s = (T, rows)) ∨ (0 < Ni ∧ ∃ r, frob T i Ni.toNat = .ok r ∧ r.1.len = basis.length ∧
        s = (r.2, upd rows i r.1))) := by
  unfold mIter
  constructor
  · intro h
    obtain ⟨b, h1, h⟩ := Res.bind_eq_ok.1 h
    split at h
    · cases h
    next hd =>
    obtain ⟨Ni, h2, h⟩ := Res.bind_eq_ok.1 h
    refine ⟨b, Ni, ?_, hd, h2, ?_⟩
    · unfold aget at h1
      split at h1
      · next y hy => rw [hy, Except.ok.inj h1]
      · cases h1
    split at h
    · next hp =>
      obtain ⟨r, h3, h⟩ := Res.bind_eq_ok.1 h
      split at h
      · next hl => exact Or.inr ⟨hp, r, h3, hl, (Except.ok.inj h).symm⟩
      · cases h
    · next hp => exact Or.inl ⟨hp, (Except.ok.inj h).symm⟩
  · rintro ⟨b, Ni, h1, hd, h2, h⟩
    rw [aget, h1]
    simp only [Res.bind_ok]
    rw [if_neg hd, h2, Res.bind_ok]
    rcases h with ⟨hp, rfl⟩ | ⟨hp, r, h3, hl, rfl⟩
    · rw [if_neg hp]; rfl
    · rw [if_pos hp, h3, Res.bind_ok, if_pos hl]; rfl

theorem mRow_ok_iff {T : List (MonMap (ZMod q))} {i : Nat} {o : Option (CVec (ZMod q))} :
    mRow frob n d basis prec T i = .ok o ↔ ∃ b Ni, basis[i]? = some b ∧ d ≠ 0 ∧
      iget prec ((sumVec b + n + 1) / d - 1) = .ok Ni ∧
      ((¬ 0 < Ni ∧ o = none) ∨ (0 < Ni ∧ ∃ r, frob T i Ni.toNat = .ok r ∧ r.1.len = basis.length ∧
        o = some r.1)) := by
  unfold mRow
  constructor
  · intro h
    obtain ⟨b, h1, h⟩ := Res.bind_eq_ok.1 h
    split at h
    · cases h
    next hd =>
    obtain ⟨Ni, h2, h⟩ := Res.bind_eq_ok.1 h
    refine ⟨b, Ni, ?_, hd, h2, ?_⟩
    · unfold aget at h1
      split at h1
      · next y hy => rw [hy, Except.ok.inj h1]
      · cases h1
    split at h
    · next hp =>
      obtain ⟨r, h3, h⟩ := Res.bind_eq_ok.1 h
      split at h
      · next hl => exact Or.inr ⟨hp, r, h3, hl, (Except.ok.inj h).symm⟩
      · cases h
    · next hp => exact Or.inl ⟨hp, (Except.ok.inj h).symm⟩
  · rintro ⟨b, Ni, h1, hd, h2, h⟩
    rw [aget, h1]
    simp only [Res.bind_ok]
    rw [if_neg hd, h2, Res.bind_ok]
    rcases h with ⟨hp, rfl⟩ | ⟨hp, r, h3, hl, rfl⟩
    · rw [if_neg hp]; rfl
    · rw [if_pos hp, h3, Res.bind_ok, if_pos hl]; rfl

theorem mIter_row (hF : FillsTable f frob) {T : List (MonMap (ZMod q))} {rows : Nat → CVec (ZMod q)} {i : Nat}
    {s : List (MonMap (ZMod q)) × (Nat → CVec (ZMod q))} (h : mIter frob n d basis prec (T, rows) i = .ok s) :
    ∃ o, mRow frob n d basis prec T i = .ok o ∧ s.2 = setRow rows i o ∧
      (s.1 = T ∨ ∃ x ∈ prec, computeFpow f T (x - 1) = .ok s.1) := by
  obtain ⟨b, Ni, h1, hd, h2, h⟩ := mIter_ok_iff.1 h
  rcases h with ⟨hp, rfl⟩ | ⟨hp, r, h3, hl, rfl⟩
  · exact ⟨none, mRow_ok_iff.2 ⟨b, Ni, h1, hd, h2, Or.inl ⟨hp, rfl⟩⟩, rfl, Or.inl rfl⟩
  · refine ⟨some r.1, mRow_ok_iff.2 ⟨b, Ni, h1, hd, h2, Or.inr ⟨hp, r, h3, hl, rfl⟩⟩, rfl,
      Or.inr ⟨Ni, iget_mem h2, ?_⟩⟩
    have := hF _ _ _ _ h3
    rwa [Int.toNat_of_nonneg (by omega)] at this

theorem mIter_of_row {T : List (MonMap (ZMod q))} (rows : Nat → CVec (ZMod q)) {i : Nat}
    {o : Option (CVec (ZMod q))} (h : mRow frob n d basis prec T i = .ok o) :
    ∃ T', mIter frob n d basis prec (T, rows) i = .ok (T', setRow rows i o) := by
  obtain ⟨b, Ni, h1, hd, h2, h⟩ := mRow_ok_iff.1 h
  rcases h with ⟨hp, rfl⟩ | ⟨hp, r, h3, hl, rfl⟩
  · exact ⟨T, mIter_ok_iff.2 ⟨b, Ni, h1, hd, h2, Or.inl ⟨hp, rfl⟩⟩⟩
  · exact ⟨r.2, mIter_ok_iff.2 ⟨b, Ni, h1, hd, h2, Or.inr ⟨hp, r, h3, hl, rfl⟩⟩⟩

theorem mFold (hF : FillsTable f frob) (P : List (MonMap (ZMod q)) → Prop) (g : Nat → Res (Option (CVec (ZMod q))))
    (order : List Nat)
    (h : ∀ T i o, i ∈ order → P T → (mRow frob n d basis prec T i = .ok o ↔ g i = .ok o))
    (hP : ∀ T T' x, x ∈ prec → P T → computeFpow f T (x - 1) = .ok T' → P T') :
    ∀ T rows, P T →
      (∀ s, order.foldlM (mIter frob n d basis prec) (T, rows) = .ok s →
        P s.1 ∧ (∀ i ∈ order, ∃ o, g i = .ok o) ∧ ∀ j, s.2 j = rowOf g order rows j) ∧
      ((∀ i ∈ order, ∃ o, g i = .ok o) → ∃ s, order.foldlM (mIter frob n d basis prec) (T, rows) = .ok s) := by
  have hP' : ∀ T rows i s, P T → mIter frob n d basis prec (T, rows) i = .ok s → P s.1 := by
    intro T rows i s hT e
    obtain ⟨o, -, -, a | ⟨x, hx, a⟩⟩ := mIter_row hF e
    · rw [a]; exact hT
    · exact hP _ _ x hx hT a
  induction order with
  | nil =>
    intro T rows hT
    refine ⟨fun s e => ?_, fun _ => ⟨_, rfl⟩⟩
    cases e
    exact ⟨hT, by simp, fun j => by simp [rowOf]⟩
  | cons i order ih =>
    intro T rows hT
    have ih := ih (fun T j o hj => h T j o (List.mem_cons_of_mem _ hj))
    constructor
    · intro s e
      rw [List.foldlM_cons, Res.bind_eq_ok] at e
      obtain ⟨s1, e1, e2⟩ := e
      obtain ⟨o, a1, a2, -⟩ := mIter_row hF e1
      have hs := hP' T rows i s1 hT e1
      have hg := (h T i o (List.mem_cons_self ..) hT).1 a1
      obtain ⟨b1, b2, b3⟩ := (ih s1.1 s1.2 hs).1 s e2
      refine ⟨b1, ?_, fun j => ?_⟩
      · intro j hj
        rcases List.mem_cons.1 hj with rfl | hj
        · exact ⟨o, hg⟩
        · exact b2 j hj
      · rw [b3 j, a2]
        unfold rowOf
        by_cases hji : j = i
        · subst hji
          rw [hg, if_pos (List.mem_cons_self ..)]
          rcases o with _ | v <;> simp [setRow, upd]
        · have : setRow rows i o j = rows j := by
            rcases o with _ | v
            · rfl
            · simp [setRow, upd, hji]
          rw [this]
          simp [List.mem_cons, hji]
    · intro hall
      obtain ⟨o, ho⟩ := hall i (List.mem_cons_self ..)
      obtain ⟨T', e1⟩ := mIter_of_row rows ((h T i o (List.mem_cons_self ..) hT).2 ho)
      have hs := hP' T rows i _ hT e1
      obtain ⟨s, e2⟩ := (ih T' (setRow rows i o) hs).2 (fun j hj => hall j (List.mem_cons_of_mem _ hj))
      exact ⟨s, by rw [List.foldlM_cons, e1, Res.bind_ok]; exact e2⟩

end

section

variable {q : Nat} {solve : Solver (ZMod q)} {N : ND (ZMod q)} {p : Nat}

theorem frobNDFlint_fills : FillsTable N.f (frobNDFlint solve N p) := by
  intro T i prec r e
  unfold frobNDFlint frobFunND at e
  obtain ⟨_, c1, e⟩ := Res.bind_eq_ok.1 e
  obtain ⟨ei, c2, e⟩ := Res.bind_eq_ok.1 e
  obtain ⟨T', c3, e⟩ := Res.bind_eq_ok.1 e
  split at e
  · cases e
  obtain ⟨F, c4, e⟩ := Res.bind_eq_ok.1 e
  obtain ⟨F', c5, e⟩ := Res.bind_eq_ok.1 e
  cases e
  exact c3

/-- The loops read the table below the precision only. -/
theorem frobCoreND_table {R : Type} [CommRing R] [DecidableEq R] {var : NDVar R} {solve : Solver R} {N : ND R} {p : Nat}
    {T T' : List (MonMap R)} {ei : IVec} {m prec : Nat} (h : ∀ j, j < prec → aget T j = aget T' j) :
    frobCoreND var solve N p T ei m prec = frobCoreND var solve N p T' ei m prec := by
  unfold frobCoreND
  rw [downTo_congr (hi := m + prec - 1) (fun e s _ h2 => ?_) _ _ (by omega)]
  have : frobNewND var N T ei m prec e s = frobNewND var N T' ei m prec e s := by
    unfold frobNewND
    split
    · next hme =>
      rcases Nat.lt_or_ge (e - m) prec with h3 | h3
      · rw [h _ h3]
      · omega
    · rfl
  rw [frobPassND, frobPassND, this]

/-- The value of `frob_ND` does not depend on the calls made before. -/
theorem frobFunND_table {var : NDVar (ZMod q)} {scale : Nat → Nat → Nat → CVec (ZMod q) → Res (CVec (ZMod q))}
    {T T' : List (MonMap (ZMod q))} {coord prec n : Nat}
    (h : Chain n N.f T) (h' : Chain n N.f T') {r : CVec (ZMod q) × List (MonMap (ZMod q))}
    {T1 : List (MonMap (ZMod q))} (h1 : computeFpow N.f T' ((prec : Int) - 1) = .ok T1)
    (e : frobFunND var scale solve N p T coord prec = .ok r) :
    frobFunND var scale solve N p T' coord prec = .ok (r.1, T1) := by
  unfold frobFunND at e ⊢
  obtain ⟨_, c1, e⟩ := Res.bind_eq_ok.1 e
  obtain ⟨ei', c2, e⟩ := Res.bind_eq_ok.1 e
  obtain ⟨T2, c3, e⟩ := Res.bind_eq_ok.1 e
  split at e
  · cases e
  next hz =>
  obtain ⟨F, c4, e⟩ := Res.bind_eq_ok.1 e
  obtain ⟨F', c5, e⟩ := Res.bind_eq_ok.1 e
  cases e
  obtain ⟨k1, l1⟩ := h.compute c3
  obtain ⟨k2, l2⟩ := h'.compute h1
  rw [frobCoreND_table (T' := T1) (fun j hj => k1.aget_eq k2 (by omega) (by omega))] at c4
  rw [c1, Res.bind_ok, c2, Res.bind_ok, h1, Res.bind_ok, if_neg hz]
  dsimp only
  rw [c4, Res.bind_ok]
  exact Res.bind_eq_ok.2 ⟨F', c5, rfl⟩

/-- The length of the result. -/
theorem frobFunND_len {var : NDVar (ZMod q)} {scale : Nat → Nat → Nat → CVec (ZMod q) → Res (CVec (ZMod q))}
    (hs : ∀ a b c F F', scale a b c F = .ok F' → F'.len = F.len)
    {T : List (MonMap (ZMod q))} {coord prec : Nat} {r : CVec (ZMod q) × List (MonMap (ZMod q))}
    (e : frobFunND var scale solve N p T coord prec = .ok r) : r.1.len = N.basis.length := by
  unfold frobFunND at e
  obtain ⟨_, c1, e⟩ := Res.bind_eq_ok.1 e
  obtain ⟨ei', c2, e⟩ := Res.bind_eq_ok.1 e
  obtain ⟨T2, c3, e⟩ := Res.bind_eq_ok.1 e
  split at e
  · cases e
  obtain ⟨F, c4, e⟩ := Res.bind_eq_ok.1 e
  obtain ⟨F', c5, e⟩ := Res.bind_eq_ok.1 e
  cases e
  show F'.len = _
  rw [hs _ _ _ _ _ c5]
  unfold frobCoreND at c4
  obtain ⟨st, c7, c6⟩ := Res.bind_eq_ok.1 c4
  obtain rfl := Except.ok.inj c6
  refine downTo_inv (P := fun s : FrobState (ZMod q) => s.last.len = N.basis.length) ?_ _ ?_ c7
  swap
  · rfl
  intro e s s' hl he
  unfold frobPassND at he
  obtain ⟨H, -, he⟩ := Res.bind_eq_ok.1 he
  obtain ⟨s1, h1, he⟩ := Res.bind_eq_ok.1 he
  cases he
  refine foldlM_inv (P := fun s : MonMap (CVec (ZMod q)) × CVec (ZMod q) => s.2.len = N.basis.length) ?_ hl h1
  intro s t s' _ hl he
  unfold frobTermND at he
  obtain ⟨v, -, he⟩ := Res.bind_eq_ok.1 he
  obtain ⟨r, -, he⟩ := Res.bind_eq_ok.1 he
  split at he
  · cases he; exact hl
  split at he
  · obtain ⟨y, -, he⟩ := Res.bind_eq_ok.1 he
    obtain ⟨_, -, he⟩ := Res.bind_eq_ok.1 he
    obtain ⟨H, -, he⟩ := Res.bind_eq_ok.1 he
    cases he; exact hl
  · obtain ⟨_, -, he⟩ := Res.bind_eq_ok.1 he
    obtain ⟨M, -, he⟩ := Res.bind_eq_ok.1 he
    obtain ⟨g, -, he⟩ := Res.bind_eq_ok.1 he
    obtain ⟨F, hF, he⟩ := Res.bind_eq_ok.1 he
    cases he
    unfold CVec.add at hF
    split at hF
    · cases hF; exact hl
    · cases hF

theorem frobScalePAdic_len (a b c : Nat) (F F' : CVec (ZMod q)) (h : frobScalePAdic a b c F = .ok F') :
    F'.len = F.len := by
  unfold frobScalePAdic at h
  obtain ⟨r, -, h⟩ := Res.bind_eq_ok.1 h
  split at h
  · cases h
  simp only at h
  split at h
  · cases h; rfl
  · obtain ⟨_, -, h⟩ := Res.bind_eq_ok.1 h
    cases h; rfl

end

end Verif
