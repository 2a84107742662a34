import Verif.Model.PolyI64
import Verif.Lemmas.Poly
import Mathlib.Algebra.BigOperators.Group.List.Basic
import Mathlib.Algebra.Order.Ring.Int
import Mathlib.Data.Nat.Choose.Sum

/-!
The sum of the absolute values of the coefficients bounds every coefficient, and is at most the product of the sums when
polynomials are multiplied.
-/

namespace Verif

open Spec

/-- The sum of the absolute values of the coefficients. -/
def l1 (m : MonMap Int) : Nat := (m.map (fun e => e.2.natAbs)).sum

theorem l1_cons (e : IVec × Int) (m : MonMap Int) : l1 (e :: m) = e.2.natAbs + l1 m := by simp [l1]

theorem l1_nil : l1 ([] : MonMap Int) = 0 := rfl

theorem l1_set_le (m : MonMap Int) (k : IVec) (c : Int) : l1 (MonMap.set m k c) ≤ l1 m + c.natAbs := by
  induction m with
  | nil => simp [MonMap.set, l1]
  | cons e m ih =>
    obtain ⟨k', v'⟩ := e
    rw [MonMap.set]
    split
    · rw [l1_cons, l1_cons]; dsimp only; omega
    · split
      · rw [l1_cons, l1_cons]; dsimp only; omega
      · rw [l1_cons, l1_cons]; dsimp only; omega

theorem keyLt_false_of_lexLt {n : Nat} (hn : 0 < n) {a b : IVec} (ha : a.length = n) (hb : b.length = n) (h : LexLt a b) :
    keyLt b a = false := by
  cases hk : keyLt b a with
  | false => rfl
  | true =>
    exfalso
    have : LexLt b a := by
      rw [← keyLt_iff (by omega) (by intro h0; rw [h0] at hb; simp at hb; omega)]; exact hk
    exact LexLt.irrefl a (h.trans this)

theorem l1_set_some {n : Nat} (hn : 0 < n) {m : MonMap Int} (h : WFPoly n m) {k : IVec} (hk : k.length = n) {v : Int}
    (hf : MonMap.find? m k = some v) (c : Int) : l1 (MonMap.set m k c) + v.natAbs = l1 m + c.natAbs := by
  induction m with
  | nil => cases hf
  | cons e m ih =>
    obtain ⟨k', v'⟩ := e
    have hwf : WFPoly n m := ⟨fun e he => h.1 e (List.mem_cons_of_mem _ he), (List.pairwise_cons.1 h.2).2⟩
    rw [MonMap.find?_cons] at hf
    rw [MonMap.set]
    by_cases he : k = k'
    · rw [if_pos he] at hf
      obtain rfl := Option.some.inj hf
      rw [if_pos he, l1_cons, l1_cons]; dsimp only; omega
    · rw [if_neg he] at hf
      have hmem : k ∈ MonMap.keys m := (MonMap.mem_keys_iff m k).2 ⟨v, hf⟩
      have hlt := (List.pairwise_cons.1 h.2).1 k hmem
      rw [if_neg he, keyLt_false_of_lexLt hn (h.1 _ (List.mem_cons_self)).1 hk hlt]
      have := ih hwf hf
      rw [if_neg (by simp), l1_cons, l1_cons]; dsimp only; omega

theorem natAbs_le_l1 {m : MonMap Int} {k : IVec} {v : Int} (hf : MonMap.find? m k = some v) : v.natAbs ≤ l1 m := by
  induction m with
  | nil => cases hf
  | cons e m ih =>
    rw [l1_cons]
    obtain ⟨k', v'⟩ := e
    rw [MonMap.find?_cons] at hf
    by_cases he : k = k'
    · rw [if_pos he] at hf
      obtain rfl := Option.some.inj hf
      dsimp only; omega
    · rw [if_neg he] at hf
      have := ih hf
      omega

theorem i64_natAbs {x : Int} (h : x.natAbs < 2 ^ 63) : i64 x = .ok x := by
  rw [i64, if_pos]
  constructor <;> omega

theorem accum64_ok {n : Nat} (hn : 0 < n) {m : MonMap Int} (h : WFPoly n m) {k : IVec} (hk : k.length = n) (c : Int)
    (hb : l1 m + c.natAbs < 2 ^ 63) :
    accum64 m k c = .ok (MonMap.accum m k c) ∧ l1 (MonMap.accum m k c) ≤ l1 m + c.natAbs := by
  unfold accum64 MonMap.accum
  cases hf : MonMap.find? m k with
  | none => exact ⟨rfl, l1_set_le m k c⟩
  | some v =>
    have h1 := natAbs_le_l1 hf
    have h2 := Int.natAbs_add_le v c
    dsimp only
    rw [i64_natAbs (by omega), Res.bind_ok]
    have := l1_set_some hn h hk hf (v + c)
    exact ⟨rfl, by omega⟩

/-- The product in 64 bits is the product if the norms allow it. -/
theorem mulMaps64_ok {n : Nat} (hn : 0 < n) {H X : MonMap Int} (hH : WFPoly n H) (hX : WFPoly n X)
    (hb : l1 H * l1 X < 2 ^ 63) :
    ∃ r, mulMaps64 H X = .ok r ∧ mulMaps H X = .ok r ∧ WFPoly n r ∧ l1 r ≤ l1 H * l1 X := by
  have inner : ∀ (kH : IVec) (cH : Int), kH.length = n → NonNeg kH → ∀ (X : MonMap Int),
      (∀ e ∈ X, e.1.length = n ∧ NonNeg e.1) → ∀ acc : MonMap Int, WFPoly n acc →
      l1 acc + cH.natAbs * l1 X < 2 ^ 63 →
      ∃ r, X.foldlM (fun acc eX => do
          let mon ← addVec eX.1 kH
          let c ← i64 (eX.2 * cH)
          accum64 acc mon c) acc = .ok r ∧
        X.foldlM (fun acc eX => do
          let mon ← addVec eX.1 kH
          pure (MonMap.accum acc mon (eX.2 * cH))) acc = .ok r ∧ WFPoly n r ∧
        l1 r ≤ l1 acc + cH.natAbs * l1 X := by
    intro kH cH hl hnn X
    induction X with
    | nil => intro _ acc hacc _; exact ⟨acc, rfl, rfl, hacc, by omega⟩
    | cons e X ih =>
      intro hX acc hacc hb
      have he := hX e (by simp)
      have hlen : e.1.length = kH.length := by omega
      have hsum : (List.zipWith (· + ·) e.1 kH).length = n := by simp; omega
      have hm : (e.2 * cH).natAbs = cH.natAbs * e.2.natAbs := by rw [Int.natAbs_mul, mul_comm]
      rw [l1_cons, Nat.mul_add] at hb
      obtain ⟨a1, a2⟩ := accum64_ok hn hacc hsum (e.2 * cH) (by omega)
      obtain ⟨r, h0, h1, h2, h3⟩ := ih (fun x hx => hX x (List.mem_cons_of_mem _ hx))
        (MonMap.accum acc (List.zipWith (· + ·) e.1 kH) (e.2 * cH))
        (hacc.accum hn hsum (nonNeg_add he.2 hnn) _) (by omega)
      refine ⟨r, ?_, ?_, h2, ?_⟩
      · rw [List.foldlM_cons]
        simp only [addVec, hlen, decide_true, check_true, Res.bind_ok, Res.pure_eq]
        rw [i64_natAbs (by omega), Res.bind_ok, a1, Res.bind_ok]
        simp only [addVec] at h0
        exact h0
      · rw [List.foldlM_cons]
        simp only [addVec, hlen, decide_true, check_true, Res.bind_ok, Res.pure_eq]
        simp only [addVec] at h1
        exact h1
      · rw [l1_cons, Nat.mul_add]; omega
  have outer : ∀ (H : MonMap Int), (∀ e ∈ H, e.1.length = n ∧ NonNeg e.1) →
      ∀ acc : MonMap Int, WFPoly n acc → l1 acc + l1 H * l1 X < 2 ^ 63 →
      ∃ r, H.foldlM (fun acc eH => X.foldlM (fun acc eX => do
          let mon ← addVec eX.1 eH.1
          let c ← i64 (eX.2 * eH.2)
          accum64 acc mon c) acc) acc = .ok r ∧
        H.foldlM (fun acc eH => X.foldlM (fun acc eX => do
          let mon ← addVec eX.1 eH.1
          pure (MonMap.accum acc mon (eX.2 * eH.2))) acc) acc = .ok r ∧ WFPoly n r ∧
        l1 r ≤ l1 acc + l1 H * l1 X := by
    intro H
    induction H with
    | nil => intro _ acc hacc _; exact ⟨acc, rfl, rfl, hacc, by omega⟩
    | cons e H ih =>
      intro hH acc hacc hb
      have he := hH e (by simp)
      rw [l1_cons, Nat.add_mul] at hb
      obtain ⟨r1, a0, a1, a2, a3⟩ := inner e.1 e.2 he.1 he.2 X hX.1 acc hacc (by omega)
      obtain ⟨r, h0, h1, h2, h3⟩ := ih (fun x hx => hH x (List.mem_cons_of_mem _ hx)) r1 a2 (by omega)
      refine ⟨r, ?_, ?_, h2, ?_⟩
      · rw [List.foldlM_cons, a0]; exact h0
      · rw [List.foldlM_cons, a1]; exact h1
      · rw [l1_cons, Nat.add_mul]; omega
  obtain ⟨r, h0, h1, h2, h3⟩ := outer H hH.1 [] (WFPoly.nil n) (by rw [l1_nil]; omega)
  exact ⟨r, h0, h1, h2, by rw [l1_nil] at h3; omega⟩

/-- `(x_i + v x)^u` in 64 bits. -/
theorem monomialExtended64_ok (n : Nat) (i : Fin n) (u v : Int) (hu : 0 ≤ u)
    (hb : ∀ j, (u.toNat).choose j < 2 ^ 63) (hv : (1 + v.natAbs) ^ u.toNat < 2 ^ 63) :
    ∃ X : MonMap Int, monomialExtended64 n i u v = .ok X ∧ monomialExtended n i u v = .ok X ∧
      l1 X ≤ (1 + v.natAbs) ^ u.toNat := by
  have hterm : ∀ j, j ≤ u.toNat → u.toNat.choose j * v.natAbs ^ j ≤ (1 + v.natAbs) ^ u.toNat := by
    intro j hj
    rw [add_comm, add_pow]
    refine le_trans ?_ (Finset.single_le_sum (f := fun m => v.natAbs ^ m * 1 ^ (u.toNat - m) * u.toNat.choose m)
      (fun _ _ => Nat.zero_le _) (Finset.mem_range.2 (Nat.lt_succ_of_le hj)))
    simp [mul_comm]
  have key : ∀ m, m ≤ u.toNat + 1 → ∃ X : MonMap Int,
      forRange m ([] : MonMap Int) (fun j m => do
        let b ← binomial u j
        let w ← i64 (v ^ j)
        let c ← i64 (b * w)
        pure (MonMap.set m (((List.replicate (n + 1) 0).set i (u - j)).set n (j : Int)) c)) = .ok X ∧
      forRange m ([] : MonMap Int) (fun j m => do
        let b ← binomial u j
        pure (MonMap.set m (((List.replicate (n + 1) 0).set i (u - j)).set n (j : Int)) (b * v ^ j))) = .ok X ∧
      l1 X ≤ ∑ j ∈ Finset.range m, u.toNat.choose j * v.natAbs ^ j := by
    intro m
    induction m with
    | zero => intro _; exact ⟨[], rfl, rfl, by simp [l1]⟩
    | succ m ih =>
      intro hm
      obtain ⟨X, e1, e2, e3⟩ := ih (by omega)
      have hbin : binomial u m = .ok ((u.toNat.choose m : Nat) : Int) := by
        have := binomial_eq u.toNat m (by omega)
        rw [if_pos (by have := hb m; omega), convLong_small _ (hb m), Int.toNat_of_nonneg hu] at this
        exact this
      have ht := hterm m (by omega)
      have hpos : 0 < u.toNat.choose m := Nat.choose_pos (by omega)
      have hw : (v ^ m).natAbs = v.natAbs ^ m := Int.natAbs_pow v m
      have hw' : v.natAbs ^ m ≤ u.toNat.choose m * v.natAbs ^ m := Nat.le_mul_of_pos_left _ hpos
      have hc : (((u.toNat.choose m : Nat) : Int) * v ^ m).natAbs = u.toNat.choose m * v.natAbs ^ m := by
        rw [Int.natAbs_mul, hw, Int.natAbs_natCast]
      refine ⟨MonMap.set X (((List.replicate (n + 1) 0).set i (u - m)).set n (m : Int))
          (((u.toNat.choose m : Nat) : Int) * v ^ m), ?_, ?_, ?_⟩
      · rw [forRange, e1, Res.bind_ok, hbin, Res.bind_ok, i64_natAbs (by omega), Res.bind_ok,
          i64_natAbs (by omega), Res.bind_ok, Res.pure_eq]
      · rw [forRange, e2, Res.bind_ok, hbin, Res.bind_ok, Res.pure_eq]
      · rw [Finset.sum_range_succ]
        refine (l1_set_le _ _ _).trans ?_
        omega
  obtain ⟨X, e1, e2, e3⟩ := key (u.toNat + 1) le_rfl
  rw [show u.toNat + 1 = (u + 1).toNat by omega] at e1 e2
  refine ⟨X, e1, e2, e3.trans (le_of_eq ?_)⟩
  rw [add_comm 1, add_pow]
  exact Finset.sum_congr (by congr 1) (fun j _ => by simp [mul_comm])

end Verif
