import Verif.Props.Frob
import Verif.Props.FrobND

/-!
# C32: how many terms the Frobenius functions can take

`D_{j,m}` is computed from `binomial`, which is wrong for coefficients in `[2^63, 2^64)` (C05).  With up to 67 terms
no such coefficient occurs (`C32_series_partial`); with 68 one does, and from 69 on `binomial` stops.
-/

namespace Verif

open Spec

theorem djmLoop_append (bin : Nat → Res Int) (acc : Int → Int → Res Int) (a : Nat) :
    ∀ (b i : Nat) (D : Int), djmLoop bin acc i (a + b) D = (do
      let D' ← djmLoop bin acc i a D
      djmLoop bin acc (i + a) b D') := by
  induction a with
  | zero => intro b i D; rw [Nat.zero_add]; rfl
  | succ a ih =>
    intro b i D
    rw [show a + 1 + b = (a + b) + 1 by omega, djmLoop, djmLoop]
    cases bin i with
    | error e => rfl
    | ok x =>
      rw [Res.bind_ok, Res.bind_ok]
      cases acc D x with
      | error e => rfl
      | ok y => rw [Res.bind_ok, Res.bind_ok, ih, show i + 1 + a = i + (a + 1) by omega]

/-- If the loop returns, `bin` did for every index. -/
theorem djmLoop_each {bin : Nat → Res Int} {acc : Int → Int → Res Int} (cnt : Nat) :
    ∀ (i : Nat) (D D' : Int), djmLoop bin acc i cnt D = .ok D' →
      ∀ k, i ≤ k → k < i + cnt → ∃ b, bin k = .ok b := by
  induction cnt with
  | zero => intro i D D' _ k h1 h2; omega
  | succ cnt ih =>
    intro i D D' h k h1 h2
    rw [djmLoop, Res.bind_eq_ok] at h
    obtain ⟨b, hb, h⟩ := h
    rw [Res.bind_eq_ok] at h
    obtain ⟨D1, -, h⟩ := h
    rcases Nat.eq_or_lt_of_le h1 with rfl | h3
    · exact ⟨b, hb⟩
    · exact ih (i + 1) _ _ h k h3 (by omega)

/-- **C32, wrong with 68 terms.**  `binomial(67, 33)` lies in the window of C05 and comes back negative, so for
every `m` the big-integer computation returns, without any error, a number that is too large by
`C(m+66, m-1) 2^64`. -/
theorem C32_window_wrong (m : Nat) (hm : 1 ≤ m) :
    djmZZ m 33 68 = .ok (djm m 68 33 + ((m + 66).choose (m - 1) : Nat) * 2 ^ 64) ∧
    djmZZ m 33 68 ≠ .ok (djm m 68 33) := by
  have e : djmZZ m 33 68 = .ok (djm m 68 33 + ((m + 66).choose (m - 1) : Nat) * 2 ^ 64) := by
    have h0 : djmZZ m 33 67 = .ok (djm m 67 33) := djmZZ_ok hm (fun i _ h2 => choose_66 (by omega))
    unfold djmZZ at h0 ⊢
    rw [show 68 - 33 = (67 - 33) + 1 from rfl, djmLoop_append, h0, Res.bind_ok, djmLoop]
    have e1 : ((m : Int) + ((33 + (67 - 33) : Nat) : Int) - 1) = ((m + 66 : Nat) : Int) := by push_cast; omega
    have e2 : ((m : Int) - 1) = ((m - 1 : Nat) : Int) := by omega
    have hw := C05_binomial_window_wrong
    have e3 := hw.1 67 33 (by decide) hw.2.1 hw.2.2
    rw [e1, e2, binomialZZ_eq _ _ (by omega), Res.bind_ok]
    rw [show ((33 + (67 - 33) : Nat) : Int) = ((67 : Nat) : Int) from rfl, e3, Res.bind_ok, Res.pure_eq, Res.bind_ok, Res.bind_ok, djmLoop]
    rw [addSigned, if_neg (by decide), djm, djm, Finset.sum_Ico_succ_top (by decide : 33 ≤ 67),
      show m + 67 - 1 = m + 66 from rfl]
    refine congrArg Except.ok ?_
    generalize (m + 66).choose (m - 1) = x
    generalize Nat.choose 67 33 = y
    generalize ∑ i ∈ Finset.Ico 33 67, (((m + i - 1).choose (m - 1) * i.choose 33 : ℕ) : ℤ) = z
    have h33 : ((-1 : ℤ)) ^ 33 = -1 := by norm_num
    rw [h33]
    push_cast
    ring
  refine ⟨e, ?_⟩
  rw [e]
  intro h
  have h1 := Except.ok.inj h
  have h2 : 0 < (m + 66).choose (m - 1) := Nat.choose_pos (by omega)
  have h3 : (0 : Int) < ((m + 66).choose (m - 1) : Nat) := by exact_mod_cast h2
  omega

theorem choose_68 {i : Nat} (h : 68 ≤ i) : 2 ^ 64 ≤ i.choose 34 :=
  le_trans (by decide +kernel : 2 ^ 64 ≤ Nat.choose 68 34) (Nat.choose_le_choose 34 h)

theorem binomial_34 {i : Nat} (h : 68 ≤ i) : binomial i 34 = .error .assertFail := by
  have := (C05_binomial_partial i 34).2.1 (by omega) (choose_68 h)
  exact this

/-- **C32 (from 69 terms on).**  All three computations need `binomial(68, 34) >= 2^64`, and stop. -/
theorem C32_stops (m N : Nat) (hN : 69 ≤ N) (D : Int) :
    djmZZ m 34 N ≠ .ok D ∧ djmMix m 34 N ≠ .ok D ∧ djm64 m 34 N ≠ .ok D := by
  have key : ∀ (bin : Nat → Res Int) (acc : Int → Int → Res Int) , (∀ b, bin 68 ≠ .ok b) →
      djmLoop bin acc 34 (N - 34) 0 ≠ .ok D := fun bin acc hb h => by
    obtain ⟨b, h1⟩ := djmLoop_each _ _ _ _ h 68 (by omega) (by omega)
    exact hb b h1
  refine ⟨key _ _ ?_, key _ _ ?_, key _ _ ?_⟩ <;>
  · intro b h
    rw [Res.bind_eq_ok] at h
    obtain ⟨a, -, h⟩ := h
    rw [show ((34 : Nat) : Int) = 34 from rfl, binomial_34 (le_refl 68)] at h
    cases h

theorem downTo_each {S : Type} {lo : Nat} {body : Nat → S → Res S} (cnt : Nat) :
    ∀ (s s' : S), downTo lo body cnt s = .ok s' → ∀ e, lo < e → e ≤ lo + cnt → ∃ a b, body e a = .ok b := by
  induction cnt with
  | zero => intro s s' _ e h1 h2; omega
  | succ cnt ih =>
    intro s s' h e h1 h2
    rw [downTo, Res.bind_eq_ok] at h
    obtain ⟨t, ht, h⟩ := h
    rcases Nat.eq_or_lt_of_le h2 with rfl | h3
    · exact ⟨s, t, ht⟩
    · exact ih _ _ h e h1 (by omega)

/-- No run of the J functions with 69 terms or more returns. -/
theorem frobCore_stops {R : Type} [CommRing R] [DecidableEq R] (var : FrobVar R) (solve : Solver R) (D : DR R)
    (p : Nat) (T : List (MonMap R)) (coord N : Nat) (hN : 69 ≤ N)
    (h1 : var.djm = djmZZ ∨ var.djm = djm64) (h2 : var.djmLast = djmMix ∨ var.djmLast = djm64) (F : CVec R) :
    frobCore var solve D p T coord N ≠ .ok F := by
  intro h
  cases hc : D.basis[coord]? with
  | none =>
    rw [frobCore, Res.bind_eq_ok] at h
    obtain ⟨-, -, h⟩ := h
    rw [aget, hc] at h
    cases h
  | some ei =>
    obtain ⟨last, F0, st, s, a1, a2, -⟩ := frobCore_runs hc rfl h
    set m := ((sumVec ei + D.n + 1) / D.d).toNat with hm
    by_cases hlt : D.n / p < m + 34
    · obtain ⟨a, b, hb⟩ := downTo_each _ _ _ a1 (m + 34) hlt (by omega)
      rw [frobPass, Res.bind_eq_ok] at hb
      obtain ⟨H, hb, -⟩ := hb
      rw [frobNew, if_pos (by omega), Res.bind_eq_ok] at hb
      obtain ⟨dV, -, hb⟩ := hb
      rw [Res.bind_eq_ok] at hb
      obtain ⟨Dj, hb, -⟩ := hb
      rw [Nat.add_sub_cancel_left] at hb
      rcases h1 with h1 | h1 <;> rw [h1] at hb
      · exact (C32_stops m N hN Dj).1 hb
      · exact (C32_stops m N hN Dj).2.2 hb
    · have hlo : (if var.full then 0 else m - 1) < m + 34 := by split <;> omega
      obtain ⟨a, b, hb⟩ := downTo_each _ _ _ a2 (m + 34) hlo (by omega)
      rw [frobLastPass, Res.bind_eq_ok] at hb
      obtain ⟨_, -, hb⟩ := hb
      rw [if_pos (by omega), Res.bind_eq_ok] at hb
      obtain ⟨r, hb, -⟩ := hb
      rw [frobSmall, Res.bind_eq_ok] at hb
      obtain ⟨dV, -, hb⟩ := hb
      rw [Res.bind_eq_ok] at hb
      obtain ⟨Dj, hb, -⟩ := hb
      rw [Nat.add_sub_cancel_left] at hb
      rcases h2 with h2 | h2 <;> rw [h2] at hb
      · exact (C32_stops m N hN Dj).2.1 hb
      · exact (C32_stops m N hN Dj).2.2 hb

/-- The same for the ND functions. -/
theorem frobCoreND_stops {R : Type} [CommRing R] [DecidableEq R] (var : NDVar R) (solve : Solver R) (N : ND R)
    (p : Nat) (T : List (MonMap R)) (ei : IVec) (m prec : Nat) (hN : 69 ≤ prec)
    (h1 : var.djm = djmMix ∨ var.djm = djm64) (F : CVec R) :
    frobCoreND var solve N p T ei m prec ≠ .ok F := by
  intro h
  rw [frobCoreND, Res.bind_eq_ok] at h
  obtain ⟨st, h, -⟩ := h
  obtain ⟨a, b, hb⟩ := downTo_each _ _ _ h (m + 34) (by omega) (by omega)
  rw [frobPassND, Res.bind_eq_ok] at hb
  obtain ⟨H, hb, -⟩ := hb
  rw [frobNewND, if_pos (by omega), Res.bind_eq_ok] at hb
  obtain ⟨Dj, hb, -⟩ := hb
  rw [Nat.add_sub_cancel_left] at hb
  rcases h1 with h1 | h1 <;> rw [h1] at hb
  · exact (C32_stops m prec hN Dj).2.1 hb
  · exact (C32_stops m prec hN Dj).2.2 hb

/-- **C32 (no result from 69 terms on).**  Whatever the object, the table, the basis element and `loop`:
none of the five Frobenius functions returns when called with `N >= 69`. -/
theorem C32_frob_stops (N : Nat) (hN : 69 ≤ N) (q p : Nat) (solve : Solver (ZMod q)) (T : List (MonMap (ZMod q)))
    (coord : Nat) (r : CVec (ZMod q) × List (MonMap (ZMod q))) :
    (∀ (D : DR (ZMod q)) (kind : LoopKind),
      frobFun (varZ solve D p kind) solve D p T coord N ≠ .ok r ∧
      frobFun (varP solve D p kind) solve D p T coord N ≠ .ok r) ∧
    (∀ (X : ND (ZMod q)) (kind : LoopKind) (batched : Bool),
      frobNDZ solve X p kind T coord N ≠ .ok r ∧ frobNDP solve X p batched T coord N ≠ .ok r ∧
      frobNDFlint solve X p T coord N ≠ .ok r) := by
  have key : ∀ (var : FrobVar (ZMod q)) (D : DR (ZMod q)), (var.djm = djmZZ ∨ var.djm = djm64) →
      (var.djmLast = djmMix ∨ var.djmLast = djm64) → frobFun var solve D p T coord N ≠ .ok r := by
    intro var D h1 h2 h
    rw [frobFun, Res.bind_eq_ok] at h
    obtain ⟨_, -, h⟩ := h
    rw [Res.bind_eq_ok] at h
    obtain ⟨ei, -, h⟩ := h
    rw [Res.bind_eq_ok] at h
    obtain ⟨T', -, h⟩ := h
    rw [Res.bind_eq_ok] at h
    obtain ⟨F, h, -⟩ := h
    exact frobCore_stops var solve D p T' coord N hN h1 h2 F h
  have keyND : ∀ (var : NDVar (ZMod q)) (scale) (X : ND (ZMod q)), (var.djm = djmMix ∨ var.djm = djm64) →
      frobFunND var scale solve X p T coord N ≠ .ok r := by
    intro var scale X h1 h
    rw [frobFunND, Res.bind_eq_ok] at h
    obtain ⟨_, -, h⟩ := h
    rw [Res.bind_eq_ok] at h
    obtain ⟨ei, -, h⟩ := h
    rw [Res.bind_eq_ok] at h
    obtain ⟨T', -, h⟩ := h
    by_cases h0 : X.d = 0 ∨ p = 0
    · rw [if_pos h0] at h; cases h
    rw [if_neg h0] at h
    dsimp only at h
    rw [Res.bind_eq_ok] at h
    obtain ⟨F, h, -⟩ := h
    exact frobCoreND_stops var solve X p T' ei _ N hN h1 F h
  exact ⟨fun D kind => ⟨key _ D (.inl rfl) (.inl rfl), key _ D (.inr rfl) (.inr rfl)⟩,
    fun X kind batched => ⟨keyND _ _ X (.inl rfl), keyND _ _ X (.inr rfl), keyND _ _ X (.inl rfl)⟩⟩

/-- With 68 terms and `m = 1`: the big-integer computations return the wrong value `-C(68,34) + 2^64`, the 64-bit one
overflows; with 67 terms the first is right. -/
example : djmZZ 1 33 68 = .ok (-10006297401531025124) ∧ djmMix 1 33 68 = .ok (-10006297401531025124) ∧
    djm64 1 33 68 = .error .ub ∧ djm 1 68 33 = -28453041475240576740 ∧
    djmZZ 1 33 67 = .ok (djm 1 67 33) := by decide +kernel

end Verif
