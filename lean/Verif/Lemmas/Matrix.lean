import Verif.Model.Matrix
import Verif.Spec.Matrix
import Mathlib.Algebra.BigOperators.Fin
import Mathlib.Data.Nat.Size
import Mathlib.Tactic.Ring
import Mathlib.Tactic.Linarith

namespace Verif

open Spec

theorem sumLoop_eq_sum {R : Type*} [AddCommMonoid R] (n : Nat) (g : Nat → R) :
    sumLoop n g = ∑ k ∈ Finset.range n, g k := by
  induction n with
  | zero => simp [sumLoop]
  | succ n ih => rw [sumLoop, ih, Finset.sum_range_succ]

theorem sumLoop_eq_sum_fin {R : Type*} [AddCommMonoid R] (n : Nat) (g : Nat → R) :
    sumLoop n g = ∑ k : Fin n, g k := by
  rw [sumLoop_eq_sum, Finset.sum_range]

/-- The `CMat` of a Mathlib matrix. -/
def CMat.ofMatrix {R : Type} [Zero R] {r c : Nat} (A : Matrix (Fin r) (Fin c) R) : CMat R :=
  ⟨r, c, fun i j => if h : i < r ∧ j < c then A ⟨i, h.1⟩ ⟨j, h.2⟩ else 0⟩

theorem CMat.ofMatrix_e {R : Type} [Zero R] {r c : Nat} (A : Matrix (Fin r) (Fin c) R)
    (i : Fin r) (j : Fin c) : (CMat.ofMatrix A).e i j = A i j := by
  simp [CMat.ofMatrix]

theorem CMat.mk'_eq_ofMatrix {R : Type} [Zero R] {r c : Nat} (f : Nat → Nat → R)
    (A : Matrix (Fin r) (Fin c) R) (h : ∀ (i : Fin r) (j : Fin c), f i j = A i j) :
    CMat.mk' r c f = CMat.ofMatrix A := by
  unfold CMat.mk' CMat.ofMatrix
  congr 1
  funext i j
  by_cases hij : i < r ∧ j < c
  · rw [if_pos hij, dif_pos hij]; exact h ⟨i, hij.1⟩ ⟨j, hij.2⟩
  · rw [if_neg hij, dif_neg hij]

theorem dotFlat_ok (A B : List Int) (ia ib : Nat → Nat) (n : Nat) (f g : Nat → Int)
    (hA : ∀ k < n, A[ia k]? = some (f k)) (hB : ∀ k < n, B[ib k]? = some (g k)) :
    dotFlat A B ia ib n = .ok (∑ k ∈ Finset.range n, f k * g k) := by
  unfold dotFlat
  obtain ⟨s, h1, h2⟩ := forRange_inv (n := n) (s := (0 : Int))
    (f := fun k acc => do
      let x ← aget A (ia k)
      let y ← aget B (ib k)
      pure (acc + x * y))
    (fun i s => s = ∑ k ∈ Finset.range i, f k * g k) (by simp)
    (by
      intro i s hi hs
      refine ⟨∑ k ∈ Finset.range (i + 1), f k * g k, ?_, rfl⟩
      · simp only [aget, hA i hi, hB i hi, Res.bind_ok, Res.pure_eq, hs, Finset.sum_range_succ])
  rw [h1, h2]

/-- A double loop whose positions are in range and pairwise distinct stores every cell. -/
theorem fillFlat_ok (res : List Int) (r c : Nat) (pos : Nat → Nat → Nat)
    (cell : Nat → Nat → Res Int) (val : Nat → Nat → Int)
    (hcell : ∀ i j, i < r → j < c → cell i j = .ok (val i j))
    (hpos : ∀ i j, i < r → j < c → pos i j < res.length)
    (hinj : ∀ i j i' j', i < r → j < c → i' < r → j' < c → pos i j = pos i' j' → i = i' ∧ j = j') :
    ∃ out, fillFlat res r c pos cell = .ok out ∧ out.length = res.length ∧
      ∀ i j, i < r → j < c → out[pos i j]? = some (val i j) := by
  unfold fillFlat
  obtain ⟨s, h1, h2⟩ := forRange_inv (n := r) (s := res)
    (f := fun i res => forRange c res (fun j res => do
      let x ← cell i j
      aset res (pos i j) x))
    (fun i s => s.length = res.length ∧
      ∀ i' j', i' < i → i' < r → j' < c → s[pos i' j']? = some (val i' j'))
    ⟨rfl, by intro i' j' h; omega⟩
    (by
      intro i s hi ⟨hl, hs⟩
      obtain ⟨s', e', p'⟩ := forRange_inv (n := c) (s := s)
        (f := fun j res => do
          let x ← cell i j
          aset res (pos i j) x)
        (fun j s' => s'.length = res.length ∧
          ∀ i' j', (i' < i ∨ (i' = i ∧ j' < j)) → i' < r → j' < c → s'[pos i' j']? = some (val i' j'))
        ⟨hl, by
          intro i' j' h hi' hj'
          rcases h with h | h
          · exact hs i' j' h hi' hj'
          · omega⟩
        (by
          intro j s hj ⟨hl', hs'⟩
          refine ⟨s.set (pos i j) (val i j), ?_, by simpa using hl', ?_⟩
          · simp only [hcell i j hi hj, Res.bind_ok]
            exact aset_of_lt _ _ _ (by rw [hl']; exact hpos i j hi hj)
          · intro i' j' h hi' hj'
            by_cases hp : pos i j = pos i' j'
            · obtain ⟨rfl, rfl⟩ := hinj i j i' j' hi hj hi' hj' hp
              rw [List.getElem?_set_self (by rw [hl']; exact hpos i j hi hj)]
            · rw [List.getElem?_set_ne hp]
              apply hs' i' j' _ hi' hj'
              rcases h with h | ⟨rfl, h⟩
              · exact Or.inl h
              · right
                refine ⟨rfl, ?_⟩
                have : j' ≠ j := by rintro rfl; exact hp rfl
                omega)
      exact ⟨s', e', p'.1, fun i' j' h hi' hj' => p'.2 i' j' (by omega) hi' hj'⟩)
  exact ⟨s, h1, h2.1, fun i j hi hj => h2.2 i j hi hi hj⟩

/-- Stride `s` addresses the same cells as stride `c` in an array with `r` rows. -/
def StrideOk (r s c : Nat) : Prop := r ≤ 1 ∨ s = c

theorem StrideOk.eq {r s c i : Nat} (h : StrideOk r s c) (hi : i < r) : i * s = i * c := by
  rcases h with h | h
  · have : i = 0 := by omega
    simp [this]
  · rw [h]

theorem rowMajor_lt {r c i j : Nat} (hi : i < r) (hj : j < c) : i * c + j < r * c := by
  have : (i + 1) * c ≤ r * c := Nat.mul_le_mul_right c hi
  rw [Nat.add_mul] at this
  omega

theorem rowMajor_inj {c i j i' j' : Nat} (hj : j < c) (hj' : j' < c)
    (h : i * c + j = i' * c + j') : i = i' ∧ j = j' := by
  have hc : 0 < c := by omega
  have h1 : (i * c + j) / c = i := by
    rw [Nat.mul_comm, Nat.mul_add_div hc, Nat.div_eq_of_lt hj, Nat.add_zero]
  have h2 : (i' * c + j') / c = i' := by
    rw [Nat.mul_comm, Nat.mul_add_div hc, Nat.div_eq_of_lt hj', Nat.add_zero]
  have : i = i' := by rw [← h1, ← h2, h]
  subst this
  exact ⟨rfl, by omega⟩

/-- Fill with a harmless stride gives a row-major matrix. -/
theorem fillFlat_rowMajor (res : List Int) (r c s : Nat) (hs : StrideOk r s c)
    (hres : res.length = r * c) (cell : Nat → Nat → Res Int) (A : Matrix (Fin r) (Fin c) ℤ)
    (hcell : ∀ (i : Fin r) (j : Fin c), cell i j = .ok (A i j)) :
    ∃ out, fillFlat res r c (fun i j => i * s + j) cell = .ok out ∧ RowMajor out A := by
  obtain ⟨out, h1, h2, h3⟩ := fillFlat_ok res r c (fun i j => i * s + j) cell
    (fun i j => if h : i < r ∧ j < c then A ⟨i, h.1⟩ ⟨j, h.2⟩ else 0)
    (by
      intro i j hi hj
      rw [dif_pos ⟨hi, hj⟩]
      exact hcell ⟨i, hi⟩ ⟨j, hj⟩)
    (by
      intro i j hi hj
      show i * s + j < _
      rw [hs.eq hi, hres]; exact rowMajor_lt hi hj)
    (by
      intro i j i' j' hi hj hi' hj' h
      simp only [hs.eq hi, hs.eq hi'] at h
      exact rowMajor_inj hj hj' h)
  refine ⟨out, h1, by rw [h2, hres], ?_⟩
  intro i j
  have := h3 i j i.2 j.2
  rw [hs.eq i.2] at this
  simpa using this

/-! ### bytes -/

theorem valueOfBytes_range (x n : Nat) :
    valueOfBytes ((List.range n).map (fun i => x / 256 ^ i % 256)) = ((x % 256 ^ n : Nat) : Int) := by
  induction n generalizing x with
  | zero => simp [valueOfBytes, Nat.mod_one]
  | succ n ih =>
    rw [List.range_succ_eq_map, List.map_cons, List.map_map, valueOfBytes]
    have : (List.range n).map ((fun i => x / 256 ^ i % 256) ∘ Nat.succ)
        = (List.range n).map (fun i => (x / 256) / 256 ^ i % 256) := by
      apply List.map_congr_left
      intro i _
      simp [Function.comp, Nat.pow_succ', Nat.div_div_eq_div_mul]
    rw [this, ih]
    have h := Nat.mod_mul (x := x) (a := 256) (b := 256 ^ n)
    rw [← Nat.pow_succ'] at h
    rw [h]; push_cast; simp

theorem natAbs_lt_numBytes (b : Int) : b.natAbs < 256 ^ numBytes b := by
  have h1 := Nat.lt_size_self b.natAbs
  have h2 : b.natAbs.size ≤ 8 * numBytes b := by unfold numBytes numBits; omega
  calc b.natAbs < 2 ^ b.natAbs.size := h1
    _ ≤ 2 ^ (8 * numBytes b) := Nat.pow_le_pow_right (by norm_num) h2
    _ = 256 ^ numBytes b := by rw [Nat.pow_mul]

theorem convZZtoMpz_eq (b : Int) : convZZtoMpz b = b := by
  unfold convZZtoMpz bytesFromZZ
  simp only [valueOfBytes_range, Nat.mod_eq_of_lt (natAbs_lt_numBytes b)]
  split <;> omega

theorem convMpztoZZ_eq (b : Int) : convMpztoZZ b = .ok b := by
  unfold convMpztoZZ bytesFromZZ
  simp only [valueOfBytes_range, Nat.mod_eq_of_lt (natAbs_lt_numBytes b)]
  rw [if_neg (by unfold numBytes; omega)]
  congr 1
  split <;> omega

end Verif
