import Verif.Model.FrobI64
import Verif.Lemmas.FrobNDMain
import Verif.Lemmas.FrobMatrix

/-!
Lemmas for the exponent vectors in 64 bits.
-/

namespace Verif

open Spec

/-- Entries `>= 0` whose sum is in the range of `int64_t`. -/
def Small (v : IVec) : Prop := NonNeg v ∧ v.sum < 2 ^ 63

theorem mem_le_vecSum : ∀ {v : IVec}, NonNeg v → ∀ x ∈ v, x ≤ v.sum
  | [], _, x, hx => by cases hx
  | y :: v, h, x, hx => by
    have h0 : 0 ≤ y := h y (by simp)
    have h1 : NonNeg v := fun z hz => h z (List.mem_cons_of_mem _ hz)
    have h2 : 0 ≤ v.sum := List.sum_nonneg h1
    rw [List.sum_cons]
    rcases List.mem_cons.1 hx with rfl | hx
    · omega
    · have := mem_le_vecSum h1 x hx
      omega

theorem Small.fit {v : IVec} (h : Small v) : fit64 v = .ok v := by
  rw [fit64, if_pos]
  rw [List.all_eq_true]
  intro x hx
  have h1 := h.1 x hx
  have h2 := mem_le_vecSum h.1 x hx
  have h3 := h.2
  exact decide_eq_true ⟨by omega, by omega⟩

theorem sum64_from : ∀ (v : IVec) (s : Int), NonNeg v → 0 ≤ s → s + v.sum < 2 ^ 63 →
    v.foldlM (fun s x => i64 (s + x)) s = .ok (s + v.sum)
  | [], s, _, _, _ => by simp [pure, Except.pure]
  | y :: v, s, h, h0, h1 => by
    have h2 : 0 ≤ y := h y (by simp)
    have h3 : NonNeg v := fun z hz => h z (List.mem_cons_of_mem _ hz)
    have h4 : 0 ≤ v.sum := List.sum_nonneg h3
    rw [List.sum_cons] at h1 ⊢
    rw [List.foldlM_cons, i64, if_pos ⟨by omega, by omega⟩, Res.bind_ok, sum64_from v (s + y) h3 (by omega) (by omega), add_assoc]

theorem Small.sum64 {v : IVec} (h : Small v) : sumVec64 v = .ok v.sum := by
  rw [sumVec64, sum64_from v 0 h.1 le_rfl (by have := h.2; omega), zero_add]

/-- `k v` can be taken from `u`. -/
def TakesFrom (k : Int) (v u : IVec) : Prop := List.Forall₂ (fun y x => 0 ≤ y ∧ k * y ≤ x) v u

theorem TakesFrom.nonneg {k : Int} {v u : IVec} (h : TakesFrom k v u) : NonNeg v := by
  induction h with
  | nil => intro x hx; cases hx
  | cons h _ ih =>
    intro x hx
    rcases List.mem_cons.1 hx with rfl | hx
    · exact h.1
    · exact ih x hx

theorem TakesFrom.sum {k : Int} {v u : IVec} (h : TakesFrom k v u) : k * v.sum ≤ u.sum := by
  induction h with
  | nil => simp
  | cons h _ ih => rw [List.sum_cons, List.sum_cons, mul_add]; have := h.2; omega

theorem TakesFrom.mul {v u : IVec} (h : TakesFrom 1 v u) {p k : Int} (hk : 0 ≤ k) (hp : k ≤ p) : TakesFrom k v (mulVec p u) := by
  induction h with
  | nil => exact List.Forall₂.nil
  | cons h _ ih => exact List.Forall₂.cons ⟨h.1, by have := h.1; have := h.2; nlinarith⟩ ih

theorem mulVec_listSum (k : Int) (v : IVec) : (mulVec k v).sum = k * v.sum := by
  rw [mulVec, List.sum_map_mul_left, List.map_id']

theorem Small.mul {p : Int} {u : IVec} (hp : 0 ≤ p) (h : NonNeg u) (hs : p * u.sum < 2 ^ 63) : Small (mulVec p u) := by
  refine ⟨fun x hx => ?_, by rw [mulVec_listSum]; exact hs⟩
  obtain ⟨y, hy, rfl⟩ := List.mem_map.1 hx
  exact mul_nonneg hp (h y hy)

theorem takes_sub {k : Int} {v u : IVec} (h : TakesFrom (k + 1) v u) (hk : 0 ≤ k) :
    subVec u v = .ok (List.zipWith (· - ·) u v) ∧ TakesFrom k v (List.zipWith (· - ·) u v) ∧ NonNeg (List.zipWith (· - ·) u v) ∧
      (List.zipWith (· - ·) u v).sum = u.sum - v.sum ∧ (List.zipWith (· - ·) u v).length = u.length := by
  have hl : v.length = u.length := List.Forall₂.length_eq h
  refine ⟨by rw [subVec, decide_eq_true hl.symm, check_true]; rfl, ?_⟩
  induction h with
  | nil => exact ⟨List.Forall₂.nil, fun x hx => (by cases hx), rfl, rfl⟩
  | @cons y x v u h _ ih =>
    obtain ⟨a, b, c, e⟩ := ih (by simpa using hl)
    refine ⟨List.Forall₂.cons ⟨h.1, by have := h.2; linarith⟩ a, ?_, ?_, by simpa using e⟩
    · intro z hz
      rw [List.zipWith_cons_cons] at hz
      rcases List.mem_cons.1 hz with rfl | hz
      · have := h.1; have := h.2; nlinarith
      · exact b z hz
    · rw [List.zipWith_cons_cons, List.sum_cons, List.sum_cons, List.sum_cons, c]; ring

theorem takes_sub64 {k : Int} {v u : IVec} (h : TakesFrom (k + 1) v u) (hk : 0 ≤ k) (hs : u.sum < 2 ^ 63) :
    subVec64 u v = subVec u v ∧ Small (List.zipWith (· - ·) u v) := by
  obtain ⟨h1, -, h3, h4, -⟩ := takes_sub h hk
  have hv : 0 ≤ v.sum := List.sum_nonneg h.nonneg
  have hsm : Small (List.zipWith (· - ·) u v) := ⟨h3, by rw [h4]; omega⟩
  exact ⟨by rw [subVec64, h1, Res.bind_ok, hsm.fit], hsm⟩

section

variable {V : Type}

theorem ndSteps64_eq {one : IVec → V → Res V} {v : IVec} : ∀ (cnt : Nat) (dest : IVec) (G : V), TakesFrom cnt v dest → dest.sum < 2 ^ 63 →
    ndSteps64 one v cnt dest G = ndSteps one v cnt dest G
  | 0, _, _, _, _ => rfl
  | cnt + 1, dest, G, h, hs => by
    push_cast at h
    obtain ⟨h1, h2, -, h4, -⟩ := takes_sub h (by omega)
    obtain ⟨h5, h6⟩ := takes_sub64 h (by omega) hs
    rw [ndSteps64, ndSteps, h5, h1, Res.bind_ok, Res.bind_ok, h6.sum64, Res.bind_ok]
    cases one (List.zipWith (· - ·) dest v) G with
    | error e => rfl
    | ok G' =>
      rw [Res.bind_ok, Res.bind_ok]
      exact ndSteps64_eq cnt _ G' h2 h6.2

theorem mulVec64_eq {p : Int} {u : IVec} (hp : 0 ≤ p) (h : NonNeg u) (hs : p * u.sum < 2 ^ 63) :
    mulVec64 p u = .ok (mulVec p u) := (Small.mul hp h hs).fit

theorem takes_self {v u : IVec} (h : TakesFrom 1 v u) : NonNeg u := by
  induction h with
  | nil => intro x hx; cases hx
  | cons h _ ih =>
    intro x hx
    rcases List.mem_cons.1 hx with rfl | hx
    · have := h.1; have := h.2; omega
    · exact ih x hx

theorem takes_mulVec {k : Int} {v u : IVec} (h : TakesFrom k v u) (hk : 0 ≤ k) : TakesFrom 1 (mulVec k v) u := by
  induction h with
  | nil => exact List.Forall₂.nil
  | cons h _ ih => exact List.Forall₂.cons ⟨mul_nonneg hk h.1, by have := h.2; linarith⟩ ih

theorem ndBatched64_eq (batch : IVec → IVec → Int → V → Res V) {p last : Nat} {u v : IVec} (h : TakesFrom 1 v u) (hl : last ≤ p)
    (hs : p * u.sum < 2 ^ 63) (G : V) : ndBatched64 batch p last u v G = ndBatched batch p last u v G := by
  have h1 : TakesFrom last v (mulVec p u) := h.mul (by omega) (by omega)
  have h2 : TakesFrom (0 + 1) (mulVec last v) (mulVec p u) := takes_mulVec h1 (by omega)
  have hsp : (mulVec p u).sum < 2 ^ 63 := by rw [mulVec_listSum]; exact hs
  have hlv : (last : Int) * v.sum < 2 ^ 63 := lt_of_le_of_lt h1.sum hsp
  obtain ⟨h5, h6⟩ := takes_sub64 h2 le_rfl hsp
  obtain ⟨h3, -⟩ := takes_sub h2 le_rfl
  rw [ndBatched64, ndBatched, mulVec64_eq (by omega) (takes_self h) hs, Res.bind_ok, mulVec64_eq (by omega) h.nonneg hlv, Res.bind_ok,
    h5, h3, Res.bind_ok, Res.bind_ok, h6.sum64, Res.bind_ok]

end

/-! ### The directions -/

theorem bumpND_below : ∀ {u v w : IVec}, TakesFrom 1 v u → bumpND u v = some w → TakesFrom 1 w u
  | [], _, _, _, h => by cases h
  | x :: u, [], _, _, h => by cases h
  | x :: u, y :: v, w, hb, h => by
    obtain ⟨h1, h2⟩ := List.forall₂_cons.1 hb
    rw [bumpND] at h
    split at h
    · rename_i hlt
      obtain rfl := Option.some.inj h
      exact List.Forall₂.cons ⟨by omega, by omega⟩ h2
    · obtain ⟨w', hw, rfl⟩ := Option.map_eq_some_iff.1 h
      exact List.Forall₂.cons h1 (bumpND_below h2 hw)

theorem dirLoopND_below {u : IVec} : ∀ (k : Nat) {v w : IVec}, TakesFrom 1 v u → dirLoopND u k v = .ok w → TakesFrom 1 w u
  | 0, _, _, hb, h => by cases h; exact hb
  | k + 1, v, w, hb, h => by
    rw [dirLoopND] at h
    split at h
    · cases h
    · rename_i v' hv
      exact dirLoopND_below k (bumpND_below hb hv) h

theorem zero_below : ∀ {u : IVec}, NonNeg u → TakesFrom 1 (u.map (fun _ => (0 : Int))) u
  | [], _ => List.Forall₂.nil
  | x :: u, h => List.Forall₂.cons ⟨le_rfl, by have := h x (by simp); simpa using this⟩ (zero_below (fun z hz => h z (List.mem_cons_of_mem _ hz)))

theorem directionND_below {d : Nat} {u v : IVec} (hu : NonNeg u) (h : directionND d u = .ok v) : TakesFrom 1 v u :=
  dirLoopND_below d (zero_below hu) h

theorem bumpShift_below : ∀ {u s v w : IVec}, NonNeg s → TakesFrom 1 v u → bumpShift u s v = some w → TakesFrom 1 w u
  | [], _, _, _, _, _, h => by cases h
  | x :: u, [], _, _, _, _, h => by cases h
  | x :: u, z :: s, [], _, _, _, h => by cases h
  | x :: u, z :: s, y :: v, w, hs, hb, h => by
    obtain ⟨h1, h2⟩ := List.forall₂_cons.1 hb
    have hz : 0 ≤ z := hs z (by simp)
    rw [bumpShift] at h
    split at h
    · rename_i hlt
      obtain rfl := Option.some.inj h
      exact List.Forall₂.cons ⟨by omega, by omega⟩ h2
    · obtain ⟨w', hw, rfl⟩ := Option.map_eq_some_iff.1 h
      exact List.Forall₂.cons h1 (bumpShift_below (fun a ha => hs a (List.mem_cons_of_mem _ ha)) h2 hw)

theorem dirLoopShift_below {u s : IVec} (hs : NonNeg s) : ∀ (k : Nat) {v w : IVec}, TakesFrom 1 v u → dirLoopShift u s k v = .ok w → TakesFrom 1 w u
  | 0, _, _, hb, h => by cases h; exact hb
  | k + 1, v, w, hb, h => by
    rw [dirLoopShift] at h
    split at h
    · cases h
    · rename_i v' hv
      exact dirLoopShift_below hs k (bumpShift_below hs hb hv) h

theorem directionShift_below {d : Nat} {u s v : IVec} (hs : NonNeg s) (hu : NonNeg u) (h : directionShift d u s = .ok v) : TakesFrom 1 v u :=
  dirLoopShift_below hs d (zero_below hu) h

/-! ### The passes -/

section

variable {R : Type} [CommRing R] [DecidableEq R]

/-- The keys of `H`. -/
def KeysFit (n : Nat) (B : Int) (H : MonMap (CVec R)) : Prop := ∀ t ∈ H, t.1.length = n + 1 ∧ NonNeg t.1 ∧ t.1.sum ≤ B

/-- The variants agree on vectors that fit. -/
structure Var64 (n p : Nat) (B : Int) (ei : IVec) (var var' : NDVar R) : Prop where
  dir : var'.dir = var.dir
  coef : var'.coef = var.coef
  drop : var'.drop = var.drop
  djm : var'.djm = var.djm
  assertLast : var'.assertLast = var.assertLast
  below : ∀ e m u v, NonNeg u → var.dir e m ei u = .ok v → TakesFrom 1 v u
  term : ∀ last u v G, last ≤ p → NonNeg u → u.sum ≤ B → TakesFrom 1 v u → var'.term last u v G = var.term last u v G

variable {var var' : NDVar R} {solve : Solver R} {N : ND R} {p m : Nat} {B : Int} {ei : IVec}

theorem KeysFit.set {n : Nat} {H : MonMap (CVec R)} (h : KeysFit n B H) {k : IVec} (hk : k.length = n + 1 ∧ NonNeg k ∧ k.sum ≤ B)
    (v : CVec R) : KeysFit n B (MonMap.set H k v) := by
  intro t ht
  rcases mem_set_any ht with h1 | h1
  · rw [h1]; exact hk
  · exact h t h1

theorem frobTermND64_eq (hv : Var64 N.n p B ei var var') (hB : p * B < 2 ^ 63) (hp : 1 ≤ p) (e : Nat) {s : MonMap (CVec R) × CVec R} {t : IVec × CVec R}
    (ht : t.1.length = N.n + 1 ∧ NonNeg t.1 ∧ t.1.sum ≤ B) :
    frobTermND64 var' solve N p e m ei s t = frobTermND var solve N p e m ei s t ∧
    ∀ s', KeysFit N.n B s.1 → frobTermND var solve N p e m ei s t = .ok s' → KeysFit N.n B s'.1 := by
  obtain ⟨t1, t2, t3⟩ := ht
  have hsum : 0 ≤ t.1.sum := List.sum_nonneg t2
  have hBs : t.1.sum < 2 ^ 63 := by nlinarith
  have hpB : (p : Int) * t.1.sum < 2 ^ 63 := by nlinarith
  have hself : TakesFrom 1 t.1 t.1 := by
    have : ∀ u : IVec, NonNeg u → TakesFrom 1 u u := by
      intro u hu
      induction u with
      | nil => exact List.Forall₂.nil
      | cons x u ih => exact List.Forall₂.cons ⟨hu x (by simp), by omega⟩ (ih (fun z hz => hu z (List.mem_cons_of_mem _ hz)))
    exact this _ t2
  have hlast : (if 1 < e then p else p - 1) ≤ p := by split <;> omega
  rw [frobTermND64, frobTermND, hv.dir]
  cases hd : (if 1 < e then var.dir e m ei t.1 else .ok t.1 : Res IVec) with
  | error x => exact ⟨rfl, fun s' _ h => (by cases h)⟩
  | ok v =>
    have hb : TakesFrom 1 v t.1 := by
      by_cases he : 1 < e
      · rw [if_pos he] at hd
        exact hv.below e m _ _ t2 hd
      · rw [if_neg he] at hd
        obtain rfl := Except.ok.inj hd
        exact hself
    rw [Res.bind_ok, Res.bind_ok, hv.term _ _ _ _ hlast t2 t3 hb]
    cases var.term (if 1 < e then p else p - 1) t.1 v t.2 with
    | error x => exact ⟨rfl, fun s' _ h => (by cases h)⟩
    | ok r =>
      rw [Res.bind_ok, Res.bind_ok, hv.assertLast]
      have hb' : TakesFrom (0 + 1) v t.1 := by rw [zero_add]; exact hb
      obtain ⟨a1, -, a3, a4, a5⟩ := takes_sub hb' le_rfl
      obtain ⟨b1, b2⟩ := takes_sub64 hb' le_rfl hBs
      have hvs : 0 ≤ v.sum := List.sum_nonneg hb.nonneg
      constructor
      · split
        · rfl
        · split
          · rw [b1, a1, Res.bind_ok, Res.bind_ok, mulVec64_eq (by omega) a3 (by rw [a4]; nlinarith), Res.bind_ok]
          · rfl
      · intro s' hk h
        split at h
        · cases h; exact hk
        · split at h
          · rw [a1, Res.bind_ok] at h
            obtain ⟨_, -, h⟩ := Res.bind_eq_ok.1 h
            obtain ⟨H, hH, h⟩ := Res.bind_eq_ok.1 h
            cases h
            rw [accTerm] at hH
            split at hH
            · cases hH
              exact hk.set ⟨by rw [a5, t1], a3, by rw [a4]; omega⟩ _
            · obtain ⟨x, -, hH⟩ := Res.bind_eq_ok.1 hH
              cases hH
              exact hk.set ⟨by rw [a5, t1], a3, by rw [a4]; omega⟩ _
          · obtain ⟨_, -, h⟩ := Res.bind_eq_ok.1 h
            obtain ⟨_, -, h⟩ := Res.bind_eq_ok.1 h
            obtain ⟨_, -, h⟩ := Res.bind_eq_ok.1 h
            obtain ⟨_, -, h⟩ := Res.bind_eq_ok.1 h
            cases h
            exact hk

/-- A fold that keeps an invariant. -/
theorem foldlM_eq_keep {α σ : Type} {f g : σ → α → Res σ} {P : σ → Prop} {Q : α → Prop}
    (h : ∀ s a, P s → Q a → f s a = g s a ∧ ∀ s', g s a = .ok s' → P s') : ∀ (l : List α) (s : σ), P s → (∀ a ∈ l, Q a) →
    l.foldlM f s = l.foldlM g s ∧ ∀ s', l.foldlM g s = .ok s' → P s'
  | [], s, hP, _ => ⟨rfl, fun s' h => by cases h; exact hP⟩
  | a :: l, s, hP, hQ => by
    obtain ⟨h1, h2⟩ := h s a hP (hQ a (by simp))
    rw [List.foldlM_cons, List.foldlM_cons, h1]
    cases hg : g s a with
    | error x => exact ⟨rfl, fun s' h => (by cases h)⟩
    | ok s1 =>
      rw [Res.bind_ok, Res.bind_ok]
      exact foldlM_eq_keep h l s1 (h2 s1 hg) (fun b hb => hQ b (List.mem_cons_of_mem _ hb))

theorem addTermsND64_eq (hv : Var64 N.n p B ei var var') (hB : B < 2 ^ 63) (Dj : Int) (fact : R) {P : MonMap R}
    (hei : ei.length = N.n + 1 ∧ NonNeg ei) (hP : ∀ it ∈ P, it.1.length = N.n + 1 ∧ NonNeg it.1 ∧ it.1.sum + ei.sum + (N.n + 1) ≤ B)
    {H : MonMap (CVec R)} (hH : KeysFit N.n B H) :
    addTermsND64 var' N ei Dj fact P H = addTermsND var N ei Dj fact P H ∧
    ∀ H', addTermsND var N ei Dj fact P H = .ok H' → KeysFit N.n B H' := by
  rw [addTermsND64, addTermsND, hv.drop, hv.coef]
  refine foldlM_eq_keep (P := KeysFit N.n B) (Q := fun it => it.1.length = N.n + 1 ∧ NonNeg it.1 ∧ it.1.sum + ei.sum + (N.n + 1) ≤ B)
    (fun H it hH hit => ?_) P H hH hP
  obtain ⟨i1, i2, i3⟩ := hit
  have add : ∀ {a b : IVec}, a.length = N.n + 1 → b.length = N.n + 1 → NonNeg a → NonNeg b → ∃ c, addVec a b = .ok c ∧ c.length = N.n + 1 ∧
      NonNeg c ∧ c.sum = a.sum + b.sum := by
    intro a b ha hb ha' hb'
    have e : addVec a b = .ok (List.zipWith (· + ·) a b) := by
      rw [addVec, decide_eq_true (by rw [ha, hb]), check_true]; rfl
    refine ⟨_, e, by simp [ha, hb], ?_, addVec_sum e⟩
    intro x hx
    obtain ⟨i, hi, rfl⟩ := List.mem_iff_getElem.1 hx
    rw [List.getElem_zipWith]
    exact add_nonneg (ha' _ (List.getElem_mem _)) (hb' _ (List.getElem_mem _))
  have hones : NonNeg (List.replicate (N.n + 1) (1 : Int)) := fun x hx => by rw [List.eq_of_mem_replicate hx]; norm_num
  have hsei : 0 ≤ ei.sum := List.sum_nonneg hei.2
  obtain ⟨a, ea, la, na, sa⟩ := add i1 hei.1 i2 hei.2
  obtain ⟨c, ec, lc, nc, sc⟩ := add la (by simp) na hones
  have hsc : c.sum ≤ B := by
    rw [sc, sa]
    simp only [List.sum_replicate, nsmul_eq_mul, mul_one]
    push_cast
    exact i3
  have ha : Small a := ⟨na, by rw [sa]; omega⟩
  have hc : Small c := ⟨nc, by omega⟩
  have e1 : addVec64 it.1 ei = .ok a := by rw [addVec64, ea, Res.bind_ok, ha.fit]
  have e2 : addVec64 a (List.replicate (N.n + 1) 1) = .ok c := by rw [addVec64, ec, Res.bind_ok, hc.fit]
  rw [e1, Res.bind_ok, e2, Res.bind_ok, ea, Res.bind_ok, ec, Res.bind_ok]
  refine ⟨rfl, fun H' h => ?_⟩
  split at h
  · cases h; exact hH
  · rw [hAdd] at h
    split at h
    · cases h
      exact hH.set ⟨lc, nc, hsc⟩ _
    · cases h

theorem aget_some {α : Type} {L : List α} {i : Nat} {a : α} (h : aget L i = .ok a) : L[i]? = some a := by
  rw [aget] at h
  cases hL : L[i]? with
  | none => rw [hL] at h; cases h
  | some b => rw [hL] at h; cases h; rfl

theorem frobNewND64_eq (hv : Var64 N.n p B ei var var') (hB : B < 2 ^ 63) {T : List (MonMap R)} {prec e : Nat}
    (hei : ei.length = N.n + 1 ∧ NonNeg ei)
    (hT : ∀ P, m ≤ e → T[e - m]? = some P → ∀ it ∈ P, it.1.length = N.n + 1 ∧ NonNeg it.1 ∧ it.1.sum + ei.sum + (N.n + 1) ≤ B)
    {st : FrobState R} (hH : KeysFit N.n B st.H) :
    frobNewND64 var' N T ei m prec e st = frobNewND var N T ei m prec e st ∧
    ∀ H', frobNewND var N T ei m prec e st = .ok H' → KeysFit N.n B H' := by
  rw [frobNewND64, frobNewND, hv.djm]
  by_cases hme : m ≤ e
  · rw [if_pos hme, if_pos hme]
    cases var.djm m (e - m) prec with
    | error x => exact ⟨rfl, fun H' h => (by cases h)⟩
    | ok Dj =>
      rw [Res.bind_ok, Res.bind_ok]
      cases hP : aget T (e - m) with
      | error x => exact ⟨rfl, fun H' h => (by cases h)⟩
      | ok P =>
        rw [Res.bind_ok, Res.bind_ok]
        exact addTermsND64_eq hv hB Dj st.fact hei (hT P hme (aget_some hP)) hH
  · rw [if_neg hme, if_neg hme]
    exact ⟨rfl, fun H' h => by cases h; exact hH⟩

theorem frobPassND64_eq (hv : Var64 N.n p B ei var var') (hB0 : 0 ≤ B) (hB : p * B < 2 ^ 63) (hp : 1 ≤ p) {T : List (MonMap R)} {prec e : Nat}
    (he : (e : Int) ≤ B) (hei : ei.length = N.n + 1 ∧ NonNeg ei)
    (hT : ∀ P, m ≤ e → T[e - m]? = some P → ∀ it ∈ P, it.1.length = N.n + 1 ∧ NonNeg it.1 ∧ it.1.sum + ei.sum + (N.n + 1) ≤ B)
    {st : FrobState R} (hH : KeysFit N.n B st.H) :
    frobPassND64 var' solve N p T ei m prec e st = frobPassND var solve N p T ei m prec e st ∧
    ∀ st', frobPassND var solve N p T ei m prec e st = .ok st' → KeysFit N.n B st'.H := by
  have hB1 : B < 2 ^ 63 := lt_of_le_of_lt (le_mul_of_one_le_left hB0 (by exact_mod_cast hp)) hB
  obtain ⟨h1, h2⟩ := frobNewND64_eq (prec := prec) hv hB1 hei hT hH
  have hpe : i64 ((p : Int) * e) = .ok ((p : Int) * e) := by
    have h0 : (0 : Int) ≤ (p : Int) * e := mul_nonneg (Int.natCast_nonneg p) (Int.natCast_nonneg e)
    have h1 : (p : Int) * e < 2 ^ 63 := lt_of_le_of_lt (mul_le_mul_of_nonneg_left he (Int.natCast_nonneg p)) hB
    rw [i64, if_pos ⟨by omega, h1⟩]
  rw [frobPassND64, frobPassND, h1]
  cases hN : frobNewND var N T ei m prec e st with
  | error x => exact ⟨by rw [Res.bind_error, Res.bind_error], fun st' h => (by cases h)⟩
  | ok H =>
    rw [Res.bind_ok, Res.bind_ok, hpe, Res.bind_ok]
    obtain ⟨h3, h4⟩ := foldlM_eq_keep (f := frobTermND64 var' solve N p e m ei) (g := frobTermND var solve N p e m ei)
      (P := fun s => KeysFit N.n B s.1) (Q := fun t => t.1.length = N.n + 1 ∧ NonNeg t.1 ∧ t.1.sum ≤ B)
      (fun s t hs ht => ⟨(frobTermND64_eq hv hB hp e ht).1, fun s' h => (frobTermND64_eq hv hB hp e ht).2 s' hs h⟩)
      H ([], st.last) (fun t ht => by cases ht) (h2 H hN)
    rw [h3]
    refine ⟨rfl, fun st' h => ?_⟩
    obtain ⟨s, hs, h⟩ := Res.bind_eq_ok.1 h
    cases h
    exact h4 s hs

theorem downTo_eq_keep {S : Type} {lo hi : Nat} {f g : Nat → S → Res S} {P : S → Prop}
    (h : ∀ e s, lo < e → e ≤ hi → P s → f e s = g e s ∧ ∀ s', g e s = .ok s' → P s') : ∀ (cnt : Nat) (s : S), lo + cnt ≤ hi → P s →
    downTo lo f cnt s = downTo lo g cnt s
  | 0, _, _, _ => rfl
  | cnt + 1, s, hc, hP => by
    obtain ⟨h1, h2⟩ := h (lo + cnt + 1) s (by omega) (by omega) hP
    rw [downTo, downTo, h1]
    cases hg : g (lo + cnt + 1) s with
    | error x => rfl
    | ok s1 =>
      rw [Res.bind_ok, Res.bind_ok]
      exact downTo_eq_keep h cnt s1 (by omega) (h2 s1 hg)

theorem frobCoreND64_eq (hv : Var64 N.n p B ei var var') (hB : p * B < 2 ^ 63) (hp : 1 ≤ p) {T : List (MonMap R)} {prec : Nat}
    (hd : 1 ≤ N.d) (hBe : B = ((m + prec - 1 : Nat) : Int) * N.d)
    (hei : IsTuple (N.n + 1) ((m : Int) * N.d - (N.n + 1)) ei) (hT : TableOK N.n N.d N.f T) :
    frobCoreND64 var' solve N p T ei m prec = frobCoreND var solve N p T ei m prec := by
  obtain ⟨e1, e2, e3⟩ := hei
  have hB0 : 0 ≤ B := by rw [hBe]; positivity
  have hT' : ∀ e, e ≤ m + prec - 1 → ∀ P, m ≤ e → T[e - m]? = some P → ∀ it ∈ P,
      it.1.length = N.n + 1 ∧ NonNeg it.1 ∧ it.1.sum + ei.sum + (N.n + 1) ≤ B := by
    intro e he P hme hPe it hit
    obtain ⟨w, -, dg⟩ := hT.entry _ _ hPe
    refine ⟨(w.1 it hit).1, (w.1 it hit).2, ?_⟩
    have h1 : it.1.sum = ((e - m : Nat) : Int) * N.d := dg it hit
    have h2 : ei.sum = (m : Int) * N.d - (N.n + 1) := e3
    rw [h1, h2, hBe]
    have h3 : ((e - m : Nat) : Int) + m ≤ ((m + prec - 1 : Nat) : Int) := by omega
    nlinarith [(by exact_mod_cast hd : (1 : Int) ≤ N.d)]
  rw [frobCoreND64, frobCoreND, downTo_eq_keep (hi := m + prec - 1) (P := fun st => KeysFit N.n B st.H) (fun e st _ he hP =>
    frobPassND64_eq (solve := solve) (prec := prec) (T := T) hv hB0 hB hp
      (by rw [hBe]; nlinarith [(by exact_mod_cast he : (e : Int) ≤ ((m + prec - 1 : Nat) : Int)), (by exact_mod_cast hd : (1 : Int) ≤ N.d)])
      ⟨e1, e2⟩ (hT' e he) hP) _ _ (by omega) (fun t ht => by cases ht)]

end

end Verif
