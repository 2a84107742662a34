import Verif.Core.Res

/-!
Counting loops and flat arrays.
-/

namespace Verif

/-- `for (i = 0; i < n; ++i) s = f(i, s)`, stopping at the first failure. -/
def forRange {σ : Type _} : (n : Nat) → σ → (Nat → σ → Res σ) → Res σ
  | 0, s, _ => .ok s
  | n + 1, s, f => forRange n s f >>= f n

/-- `for (k = 0; k < n; ++k) acc += g(k)` from `acc = 0`. -/
def sumLoop {R : Type _} [Zero R] [Add R] : Nat → (Nat → R) → R
  | 0, _ => 0
  | n + 1, g => sumLoop n g + g n

/-- Read `a[i]` of a flat array; out of bounds is undefined behaviour. -/
def aget {α : Type _} (a : List α) (i : Nat) : Res α :=
  match a[i]? with
  | some x => .ok x
  | none => .error .ub

/-- Write `a[i] = x`; out of bounds is undefined behaviour. -/
def aset {α : Type _} (a : List α) (i : Nat) (x : α) : Res (List α) :=
  if i < a.length then .ok (a.set i x) else .error .ub

/-- Loop rule: an invariant kept by every pass holds at the end, and no pass fails. -/
theorem forRange_inv {σ : Type _} {n : Nat} {s : σ} {f : Nat → σ → Res σ} (P : Nat → σ → Prop)
    (h0 : P 0 s) (hs : ∀ i s, i < n → P i s → ∃ s', f i s = .ok s' ∧ P (i + 1) s') :
    ∃ s', forRange n s f = .ok s' ∧ P n s' := by
  induction n with
  | zero => exact ⟨s, rfl, h0⟩
  | succ n ih =>
    obtain ⟨s1, e1, p1⟩ := ih (fun i s hi hp => hs i s (by omega) hp)
    obtain ⟨s2, e2, p2⟩ := hs n s1 (by omega) p1
    exact ⟨s2, by rw [forRange, e1]; exact e2, p2⟩

/-- If some pass fails on every state the loop can reach there, the loop fails. -/
theorem forRange_error {σ : Type _} {n : Nat} {s : σ} {f : Nat → σ → Res σ} (k : Nat) (e : Fail)
    (hk : k < n) (P : Nat → σ → Prop) (h0 : P 0 s)
    (hs : ∀ i s, i < k → P i s → ∃ s', f i s = .ok s' ∧ P (i + 1) s')
    (he : ∀ s, P k s → f k s = .error e) : forRange n s f = .error e := by
  induction n with
  | zero => omega
  | succ n ih =>
    by_cases h : k = n
    · subst h
      obtain ⟨s1, e1, p1⟩ := forRange_inv (n := k) (s := s) (f := f) P h0 hs
      rw [forRange, e1]
      exact he s1 p1
    · rw [forRange, ih (by omega)]; rfl

/-- Loop rule for a loop known to have returned: an invariant kept by every returning pass holds. -/
theorem forRange_ok_inv {σ : Type _} {n : Nat} {s : σ} {f : Nat → σ → Res σ} {r : σ}
    (P : Nat → σ → Prop) (h0 : P 0 s)
    (hs : ∀ i s s', i < n → P i s → f i s = .ok s' → P (i + 1) s')
    (h : forRange n s f = .ok r) : P n r := by
  induction n generalizing r with
  | zero => cases h; exact h0
  | succ n ih =>
    rw [forRange, Res.bind_eq_ok] at h
    obtain ⟨a, ha, hb⟩ := h
    exact hs n a r (by omega) (ih (fun i s s' hi hp he => hs i s s' (by omega) hp he) ha) hb

theorem aget_of_lt {α : Type _} (a : List α) (i : Nat) (h : i < a.length) : aget a i = .ok a[i] := by
  simp [aget, h]

theorem aget_ub {α : Type _} (a : List α) (i : Nat) (h : a.length ≤ i) : aget a i = .error .ub := by
  simp [aget, h]

theorem aset_of_lt {α : Type _} (a : List α) (i : Nat) (x : α) (h : i < a.length) :
    aset a i x = .ok (a.set i x) := by
  simp [aset, h]

theorem aset_ub {α : Type _} (a : List α) (i : Nat) (x : α) (h : a.length ≤ i) :
    aset a i x = .error .ub := by
  simp [aset, h]

end Verif
