import Verif.Model.FrobJI64
import Verif.Lemmas.FrobI64

/-!
Lemmas for the exponent vectors of `frob_J_ZZ` and `frob_J_ZZ_p` in 64 bits.
-/

namespace Verif

open Spec

/-- Sums of vectors with entries `>= 0`. -/
theorem add64_eq {a b : IVec} (hl : a.length = b.length) (ha : NonNeg a) (hb : NonNeg b) (hs : a.sum + b.sum < 2 ^ 63) :
    ∃ c, addVec a b = .ok c ∧ addVec64 a b = .ok c ∧ c.length = a.length ∧ NonNeg c ∧ c.sum = a.sum + b.sum := by
  have e : addVec a b = .ok (List.zipWith (· + ·) a b) := by
    rw [addVec, decide_eq_true hl, check_true]; rfl
  have hn : NonNeg (List.zipWith (· + ·) a b) := by
    intro x hx
    obtain ⟨i, hi, rfl⟩ := List.mem_iff_getElem.1 hx
    rw [List.getElem_zipWith]
    exact add_nonneg (ha _ (List.getElem_mem _)) (hb _ (List.getElem_mem _))
  have hsm : Small (List.zipWith (· + ·) a b) := ⟨hn, by rw [addVec_sum e]; exact hs⟩
  exact ⟨_, e, by rw [addVec64, e, Res.bind_ok, hsm.fit], by simp [hl], hn, addVec_sum e⟩

/-- Differences of vectors with entries `>= 0`, and the sum of their entries. -/
theorem diff_sum64 : ∀ (a b : IVec) (x y : Int), a.length = b.length → NonNeg a → NonNeg b → 0 ≤ x → 0 ≤ y →
    x + a.sum < 2 ^ 63 → y + b.sum < 2 ^ 63 → ∃ z, (List.zipWith (· - ·) a b).foldlM (fun s x => i64 (s + x)) (x - y) = .ok z
  | [], b, x, y, _, _, _, _, _, _, _ => ⟨x - y, by simp [pure, Except.pure]⟩
  | _ :: _, [], _, _, hl, _, _, _, _, _, _ => by cases hl
  | s :: a, t :: b, x, y, hl, ha, hb, hx, hy, h1, h2 => by
    have ha' : NonNeg a := fun z hz => ha z (List.mem_cons_of_mem _ hz)
    have hb' : NonNeg b := fun z hz => hb z (List.mem_cons_of_mem _ hz)
    have s0 : 0 ≤ s := ha s (by simp)
    have t0 : 0 ≤ t := hb t (by simp)
    have sa : 0 ≤ a.sum := List.sum_nonneg ha'
    have sb : 0 ≤ b.sum := List.sum_nonneg hb'
    rw [List.sum_cons] at h1 h2
    rw [List.zipWith_cons_cons, List.foldlM_cons, show x - y + (s - t) = (x + s) - (y + t) by ring, i64, if_pos ⟨by omega, by omega⟩, Res.bind_ok]
    exact diff_sum64 a b (x + s) (y + t) (by simpa using hl) ha' hb' (by omega) (by omega) (by omega) (by omega)

theorem diff64_eq {a b : IVec} (hl : a.length = b.length) (ha : Small a) (hb : Small b) :
    subVec64 a b = .ok (List.zipWith (· - ·) a b) ∧ subVec a b = .ok (List.zipWith (· - ·) a b) ∧
      ∃ z, sumVec64 (List.zipWith (· - ·) a b) = .ok z := by
  have e : subVec a b = .ok (List.zipWith (· - ·) a b) := by
    rw [subVec, decide_eq_true hl, check_true]; rfl
  refine ⟨?_, e, ?_⟩
  · rw [subVec64, e, Res.bind_ok, fit64, if_pos]
    rw [List.all_eq_true]
    intro x hx
    obtain ⟨i, hi, rfl⟩ := List.mem_iff_getElem.1 hx
    rw [List.getElem_zipWith]
    simp only [List.length_zipWith] at hi
    have hi1 : i < a.length := by omega
    have hi2 : i < b.length := by omega
    have h1 := ha.1 _ (List.getElem_mem hi1)
    have h2 := hb.1 _ (List.getElem_mem hi2)
    have h3 := mem_le_vecSum ha.1 _ (List.getElem_mem hi1)
    have h4 := mem_le_vecSum hb.1 _ (List.getElem_mem hi2)
    have h5 := ha.2
    have h6 := hb.2
    exact decide_eq_true ⟨by omega, by omega⟩
  · have := diff_sum64 a b 0 0 hl ha.1 hb.1 le_rfl le_rfl (by have := ha.2; omega) (by have := hb.2; omega)
    rw [sub_zero] at this
    exact this

theorem tweak_small {a w : IVec} {r : Int} (ha : Small a) (h : tweak a r = .ok w) :
    Small w ∧ w.length = a.length ∧ w.sum ≤ a.sum := by
  rw [tweak] at h
  split at h
  · cases h
  · cases h
    obtain ⟨h1, h2, h3⟩ := tweakNat_props a r.toNat ha.1
    have h0 : 0 ≤ a.sum := List.sum_nonneg ha.1
    have h4 : (tweakNat a r.toNat).sum ≤ a.sum := by rw [h3]; omega
    exact ⟨⟨h1, lt_of_le_of_lt h4 ha.2⟩, by simp, h4⟩

section

variable {V : Type}

theorem tweakAt64_eq {p : Nat} (r : Int) {u v : IVec} {i : Nat} (h : TakesFrom 1 v u) (hi : i ≤ p) (hs : p * u.sum < 2 ^ 63) :
    tweakAt64 p r u v i = tweakAt p r u v i ∧ ∀ w, tweakAt p r u v i = .ok w → Small w ∧ w.length = u.length := by
  have h1 : TakesFrom i v (mulVec p u) := h.mul (by omega) (by omega)
  have h2 : TakesFrom (0 + 1) (mulVec i v) (mulVec p u) := takes_mulVec h1 (by omega)
  have hsp : (mulVec p u).sum < 2 ^ 63 := by rw [mulVec_listSum]; exact hs
  have hlv : (i : Int) * v.sum < 2 ^ 63 := lt_of_le_of_lt h1.sum hsp
  obtain ⟨h5, h6⟩ := takes_sub64 h2 le_rfl hsp
  obtain ⟨h3, -, -, -, hl⟩ := takes_sub h2 le_rfl
  refine ⟨?_, fun w hw => ?_⟩
  · rw [tweakAt64, tweakAt, mulVec64_eq (by omega) (takes_self h) hs, Res.bind_ok, mulVec64_eq (by omega) h.nonneg hlv, Res.bind_ok,
      h5, h3, Res.bind_ok]
  · rw [tweakAt, h3, Res.bind_ok] at hw
    obtain ⟨a, b, -⟩ := tweak_small h6 hw
    exact ⟨a, by rw [b, hl, mulVec, List.length_map]⟩

theorem redSteps64_eq {one : IVec → IVec → V → Res V} {p : Nat} {r : Int} {u v : IVec} (h : TakesFrom 1 v u) (hs : p * u.sum < 2 ^ 63) :
    ∀ (cnt i : Nat) (dest : IVec) (G : V), i + cnt ≤ p → redSteps64 one p r u v i cnt dest G = redSteps one p r u v i cnt dest G
  | 0, _, _, _, _ => rfl
  | cnt + 1, i, dest, G, hi => by
    obtain ⟨a1, a2⟩ := tweakAt64_eq r (i := i) h (by omega) hs
    obtain ⟨b1, b2⟩ := tweakAt64_eq r (i := i + 1) h (by omega) hs
    rw [redSteps64, redSteps, a1, b1]
    cases hA : tweakAt p r u v i with
    | error x => rw [Res.bind_error, Res.bind_error]
    | ok src =>
      rw [Res.bind_ok, Res.bind_ok]
      cases hB : tweakAt p r u v (i + 1) with
      | error x => rw [Res.bind_error, Res.bind_error]
      | ok dest' =>
        rw [Res.bind_ok, Res.bind_ok]
        obtain ⟨s1, l1⟩ := a2 src hA
        obtain ⟨s2, l2⟩ := b2 dest' hB
        obtain ⟨c1, c2, z, c3⟩ := diff64_eq (by rw [l1, l2]) s1 s2
        rw [c1, c2, Res.bind_ok, Res.bind_ok, s2.sum64, Res.bind_ok, c3, Res.bind_ok]
        cases one dest' (List.zipWith (· - ·) src dest') G with
        | error x => rw [Res.bind_error, Res.bind_error]
        | ok G' =>
          rw [Res.bind_ok, Res.bind_ok]
          exact redSteps64_eq h hs cnt (i + 1) dest' G' (by omega)

theorem termRed64_eq (one : IVec → IVec → V → Res V) (batch : IVec → IVec → Int → V → Res V) (kind : LoopKind) {p last : Nat} {r : Int}
    (hr : 0 ≤ r) {u v : IVec} (h : TakesFrom 1 v u) (hl : last ≤ p) (hs : p * u.sum < 2 ^ 63) (hs1 : u.sum < 2 ^ 63) (G : V) :
    termRed64 one batch kind p r last u v G = termRed one batch kind p r last u v G := by
  rw [termRed64, termRed]
  by_cases hk : kind = .poly ∧ r < last
  · rw [if_pos hk, if_pos hk]
    have hrl := hk.2
    have hv0 : 0 ≤ v.sum := List.sum_nonneg h.nonneg
    have hvu : v.sum ≤ u.sum := by have := h.sum; omega
    have h' : TakesFrom (0 + 1) v u := by rw [zero_add]; exact h
    obtain ⟨a1, -, a3, a4, a5⟩ := takes_sub h' le_rfl
    obtain ⟨b1, b2⟩ := takes_sub64 h' le_rfl hs1
    have e1 : r * v.sum ≤ p * u.sum := by nlinarith [(by exact_mod_cast hl : (last : Int) ≤ p)]
    have e2 : (p : Int) * (List.zipWith (· - ·) u v).sum = p * u.sum - p * v.sum := by rw [a4]; ring
    have e3 : (0 : Int) ≤ p * v.sum := mul_nonneg (Int.natCast_nonneg p) hv0
    have e4 : ((p : Int) - last) * v.sum = p * v.sum - last * v.sum := by ring
    have e5 : r * v.sum ≤ last * v.sum := mul_le_mul_of_nonneg_right (le_of_lt hrl) hv0
    have e6 : (last : Int) * v.sum ≤ p * v.sum := mul_le_mul_of_nonneg_right (by exact_mod_cast hl) hv0
    have e7 : 0 ≤ r * v.sum := mul_nonneg hr hv0
    have e8 : (p : Int) * v.sum ≤ p * u.sum := mul_le_mul_of_nonneg_left hvu (Int.natCast_nonneg p)
    have srv : Small (mulVec r v) := Small.mul hr h.nonneg (lt_of_le_of_lt e1 hs)
    have spa : Small (mulVec p (List.zipWith (· - ·) u v)) := Small.mul (Int.natCast_nonneg p) a3 (by omega)
    have sev : Small (mulVec ((p : Int) - last) v) := Small.mul (by omega) h.nonneg (by omega)
    have hlen : (List.zipWith (· - ·) u v).length = v.length := by rw [a5]; exact (List.Forall₂.length_eq h).symm
    obtain ⟨b, g1, g2, g3, g4, g5⟩ := add64_eq (a := mulVec p (List.zipWith (· - ·) u v)) (b := mulVec ((p : Int) - last) v)
      (by rw [mulVec, mulVec, List.length_map, List.length_map, hlen]) spa.1 sev.1 (by rw [mulVec_listSum, mulVec_listSum]; omega)
    rw [mulVec_listSum, mulVec_listSum] at g5
    have hbl : b.length = v.length := by rw [g3, mulVec, List.length_map, hlen]
    rw [b1, a1, Res.bind_ok, Res.bind_ok, mulVec64, srv.fit, Res.bind_ok]
    cases hT : tweak (mulVec r v) r with
    | error x => rw [Res.bind_error, Res.bind_error]
    | ok rv =>
      obtain ⟨t1, t2, t3⟩ := tweak_small srv hT
      rw [mulVec_listSum] at t3
      obtain ⟨dest, k1, k2, -, -, -⟩ := add64_eq (a := b) (b := rv) (by rw [hbl, t2, mulVec, List.length_map]) g4 t1.1 (by omega)
      obtain ⟨c, m1, m2, -, -, -⟩ := add64_eq (a := b) (b := mulVec r v) (by rw [hbl, mulVec, List.length_map]) g4 srv.1
        (by rw [mulVec_listSum]; omega)
      rw [Res.bind_ok, Res.bind_ok, mulVec64, spa.fit, Res.bind_ok, mulVec64, sev.fit, Res.bind_ok, g2, g1, Res.bind_ok, Res.bind_ok,
        k2, k1, Res.bind_ok, Res.bind_ok, m2, m1, Res.bind_ok, Res.bind_ok]
      cases tweak c r with
      | error x => rw [Res.bind_error, Res.bind_error]
      | ok c' =>
        rw [Res.bind_ok, Res.bind_ok]
        cases check (decide (dest = c')) with
        | error x => rw [Res.bind_error, Res.bind_error]
        | ok _ =>
          rw [Res.bind_ok, Res.bind_ok]
          cases batch dest v ((last : Int) - r) G with
          | error x => rw [Res.bind_error, Res.bind_error]
          | ok G' =>
            rw [Res.bind_ok, Res.bind_ok]
            exact redSteps64_eq h hs _ _ _ _ (by omega)
  · rw [if_neg hk, if_neg hk]
    exact redSteps64_eq h hs _ _ _ _ (by omega)

end

/-! ### The direction -/

theorem bumpFirst_takes : ∀ {u v w : IVec}, TakesFrom 1 v u → bumpFirst u v = some w → TakesFrom 1 w u
  | [], _, _, _, h => by cases h
  | x :: u, [], _, _, h => by cases h
  | x :: u, y :: v, w, hb, h => by
    obtain ⟨h1, h2⟩ := List.forall₂_cons.1 hb
    rw [bumpFirst] at h
    split at h
    · rename_i hlt
      obtain rfl := Option.some.inj h
      exact List.Forall₂.cons ⟨by omega, by omega⟩ h2
    · obtain ⟨w', hw, rfl⟩ := Option.map_eq_some_iff.1 h
      exact List.Forall₂.cons h1 (bumpFirst_takes h2 hw)

theorem dirLoop_takes {u : IVec} : ∀ (k : Nat) {v w : IVec}, TakesFrom 1 v u → dirLoop u k v = .ok w → TakesFrom 1 w u
  | 0, _, _, hb, h => by cases h; exact hb
  | k + 1, v, w, hb, h => by
    rw [dirLoop] at h
    split at h
    · cases h
    · rename_i v' hv
      exact dirLoop_takes k (bumpFirst_takes hb hv) h

theorem ones_take : ∀ {u : IVec}, NonNeg u → TakesFrom 1 (u.map (fun x => if 0 < x then (1 : Int) else 0)) u
  | [], _ => List.Forall₂.nil
  | x :: u, h => by
    have hx := h x (by simp)
    refine List.Forall₂.cons ?_ (ones_take (fun z hz => h z (List.mem_cons_of_mem _ hz)))
    by_cases h0 : 0 < x
    · simp only [if_pos h0]; omega
    · simp only [if_neg h0]; omega

theorem direction_takes {d : Nat} {u v : IVec} (hu : NonNeg u) (h : direction d u = .ok v) : TakesFrom 1 v u :=
  dirLoop_takes _ (ones_take hu) h

/-! ### The passes -/

section

variable {R : Type} [CommRing R] [DecidableEq R]

/-- The variants agree on vectors that fit. -/
structure VarJ64 (p : Nat) (B : Int) (var var' : FrobVar R) : Prop where
  coef : var'.coef = var.coef
  skip : var'.skip = var.skip
  djm : var'.djm = var.djm
  djmLast : var'.djmLast = var.djmLast
  full : var'.full = var.full
  assertFact : var'.assertFact = var.assertFact
  reuse : var'.reuse = var.reuse
  term : ∀ last u v G, last ≤ p → NonNeg u → u.sum ≤ B → TakesFrom 1 v u → var'.term last u v G = var.term last u v G

variable {var var' : FrobVar R} {solve : Solver R} {D : DR R} {p m : Nat} {B : Int} {ei : IVec}

theorem frobTerm64_eq (hv : VarJ64 p B var var') (hB : B < 2 ^ 63) (e : Nat) {s : MonMap (CVec R) × CVec R} {t : IVec × CVec R}
    (ht : t.1.length = D.n + 1 ∧ NonNeg t.1 ∧ t.1.sum ≤ B) :
    frobTerm64 var' D p e s t = frobTerm var D p e s t ∧
    ∀ s', KeysFit D.n B s.1 → frobTerm var D p e s t = .ok s' → KeysFit D.n B s'.1 := by
  obtain ⟨t1, t2, t3⟩ := ht
  have hlast : (if D.n / p + 1 < e then p else p - D.n % p) ≤ p := by split <;> omega
  rw [frobTerm64, frobTerm, hv.skip]
  cases hd : direction D.d t.1 with
  | error x => exact ⟨rfl, fun s' _ h => (by cases h)⟩
  | ok v =>
    have hb := direction_takes t2 hd
    rw [Res.bind_ok, Res.bind_ok, hv.term _ _ _ _ hlast t2 t3 hb]
    cases var.term (if D.n / p + 1 < e then p else p - D.n % p) t.1 v t.2 with
    | error x => exact ⟨rfl, fun s' _ h => (by cases h)⟩
    | ok r =>
      rw [Res.bind_ok, Res.bind_ok]
      have hb' : TakesFrom (0 + 1) v t.1 := by rw [zero_add]; exact hb
      obtain ⟨a1, -, a3, a4, a5⟩ := takes_sub hb' le_rfl
      obtain ⟨b1, b2⟩ := takes_sub64 hb' le_rfl (lt_of_le_of_lt t3 hB)
      have hvs : 0 ≤ v.sum := List.sum_nonneg hb.nonneg
      constructor
      · split
        · rfl
        · split
          · rw [b1]
          · rfl
      · intro s' hk h
        split at h
        · cases h; exact hk
        · split at h
          · rw [a1, Res.bind_ok] at h
            obtain ⟨H, hH, h⟩ := Res.bind_eq_ok.1 h
            cases h
            rw [accTerm] at hH
            split at hH
            · cases hH
              exact hk.set ⟨by rw [a5, t1], a3, by rw [a4]; omega⟩ _
            · obtain ⟨x, -, hH⟩ := Res.bind_eq_ok.1 hH
              cases hH
              exact hk.set ⟨by rw [a5, t1], a3, by rw [a4]; omega⟩ _
          · obtain ⟨_, -, h⟩ := Res.bind_eq_ok.1 h
            obtain ⟨_, -, h⟩ := Res.bind_eq_ok.1 h
            obtain ⟨_, -, h⟩ := Res.bind_eq_ok.1 h
            cases h
            exact hk

/-- The monomial `x + ei + ones`. -/
theorem monomial64 {n : Nat} {x ei : IVec} (hx : x.length = n + 1 ∧ NonNeg x) (hei : ei.length = n + 1 ∧ NonNeg ei)
    (hB : x.sum + ei.sum + (n + 1) < 2 ^ 63) :
    ∃ a c, addVec x ei = .ok a ∧ addVec64 x ei = .ok a ∧ addVec a (List.replicate (n + 1) 1) = .ok c ∧
      addVec64 a (List.replicate (n + 1) 1) = .ok c ∧ c.length = n + 1 ∧ NonNeg c ∧ c.sum = x.sum + ei.sum + (n + 1) := by
  have hones : NonNeg (List.replicate (n + 1) (1 : Int)) := fun x hx => by rw [List.eq_of_mem_replicate hx]; norm_num
  have hs : (List.replicate (n + 1) (1 : Int)).sum = n + 1 := by simp
  obtain ⟨a, a1, a2, a3, a4, a5⟩ := add64_eq (by rw [hx.1, hei.1]) hx.2 hei.2 (by omega)
  obtain ⟨c, c1, c2, c3, c4, c5⟩ := add64_eq (a := a) (b := List.replicate (n + 1) 1) (by rw [a3, hx.1, List.length_replicate]) a4 hones
    (by rw [a5, hs]; exact hB)
  exact ⟨a, c, a1, a2, c1, c2, by rw [c3, a3, hx.1], c4, by rw [c5, a5, hs]⟩

theorem addTerms64_eq (hp : 1 ≤ p) (hB0 : 0 ≤ B) (hB : p * B < 2 ^ 63) (c : R → R) (dictV : MonMap Nat) {P : MonMap R}
    (hei : ei.length = D.n + 1 ∧ NonNeg ei) (hP : ∀ it ∈ P, it.1.length = D.n + 1 ∧ NonNeg it.1 ∧ it.1.sum + ei.sum + (D.n + 1) ≤ B)
    {H : MonMap (CVec R)} (hH : KeysFit D.n B H) :
    addTerms64 D p ei c dictV P H = addTerms D p ei c dictV P H ∧
    ∀ H', addTerms D p ei c dictV P H = .ok H' → KeysFit D.n B H' := by
  have hB1 : B < 2 ^ 63 := lt_of_le_of_lt (le_mul_of_one_le_left hB0 (by exact_mod_cast hp)) hB
  rw [addTerms64, addTerms]
  refine foldlM_eq_keep (P := KeysFit D.n B) (Q := fun it => it.1.length = D.n + 1 ∧ NonNeg it.1 ∧ it.1.sum + ei.sum + (D.n + 1) ≤ B)
    (fun H it hH hit => ?_) P H hH hP
  obtain ⟨i1, i2, i3⟩ := hit
  obtain ⟨a, mon, e1, e2, e3, e4, l, nn, sm⟩ := monomial64 ⟨i1, i2⟩ hei (lt_of_le_of_lt i3 hB1)
  have hmon : mon.sum ≤ B := by rw [sm]; exact i3
  have spm : Small (mulVec p mon) := Small.mul (Int.natCast_nonneg p) nn (lt_of_le_of_lt (mul_le_mul_of_nonneg_left hmon (Int.natCast_nonneg p)) hB)
  rw [e1, e2, Res.bind_ok, Res.bind_ok, e3, e4, Res.bind_ok, Res.bind_ok, mulVec64, spm.fit, Res.bind_ok]
  cases hT : tweak (mulVec p mon) ((D.d : Int) * D.n - D.n) with
  | error x => exact ⟨rfl, fun s' h => (by cases h)⟩
  | ok w =>
    obtain ⟨t1, t2, -⟩ := tweak_small spm hT
    obtain ⟨d1, d2, -⟩ := diff64_eq t2.symm spm t1
    rw [Res.bind_ok, Res.bind_ok, d1, d2, Res.bind_ok]
    refine ⟨rfl, fun H' h => ?_⟩
    obtain ⟨k, -, h⟩ := Res.bind_eq_ok.1 h
    cases h
    exact hH.set ⟨l, nn, hmon⟩ _

theorem frobNew64_eq (hv : VarJ64 p B var var') (hp : 1 ≤ p) (hB0 : 0 ≤ B) (hB : p * B < 2 ^ 63) {T : List (MonMap R)} {prec e : Nat}
    (hei : ei.length = D.n + 1 ∧ NonNeg ei)
    (hT : ∀ P, m ≤ e → T[e - m]? = some P → ∀ it ∈ P, it.1.length = D.n + 1 ∧ NonNeg it.1 ∧ it.1.sum + ei.sum + (D.n + 1) ≤ B)
    {st : FrobState R} (hH : KeysFit D.n B st.H) :
    frobNew64 var' D p T ei m prec e st = frobNew var D p T ei m prec e st ∧
    ∀ H', frobNew var D p T ei m prec e st = .ok H' → KeysFit D.n B H' := by
  rw [frobNew64, frobNew, hv.djm, hv.coef]
  by_cases hme : m ≤ e
  · rw [if_pos hme, if_pos hme]
    cases D.dict ((D.d : Int) * D.n - D.n) with
    | error x => exact ⟨rfl, fun H' h => (by cases h)⟩
    | ok dictV =>
      rw [Res.bind_ok, Res.bind_ok]
      cases var.djm m (e - m) prec with
      | error x => exact ⟨rfl, fun H' h => (by cases h)⟩
      | ok Dj =>
        rw [Res.bind_ok, Res.bind_ok]
        cases hP : aget T (e - m) with
        | error x => exact ⟨rfl, fun H' h => (by cases h)⟩
        | ok P =>
          rw [Res.bind_ok, Res.bind_ok]
          exact addTerms64_eq hp hB0 hB _ dictV hei (hT P hme (aget_some hP)) hH
  · rw [if_neg hme, if_neg hme]
    exact ⟨rfl, fun H' h => by cases h; exact hH⟩

theorem i64_nat {x y : Int} (h0 : 0 ≤ x) (h : x ≤ y) (hy : y < 2 ^ 63) : i64 x = .ok x := by
  rw [i64, if_pos ⟨by omega, by omega⟩]

theorem frobPass64_eq (hv : VarJ64 p B var var') (hB0 : 0 ≤ B) (hB : p * B < 2 ^ 63) (hp : 1 ≤ p) {T : List (MonMap R)} {prec e : Nat}
    (he : (e : Int) ≤ B) (hei : ei.length = D.n + 1 ∧ NonNeg ei)
    (hT : ∀ P, m ≤ e → T[e - m]? = some P → ∀ it ∈ P, it.1.length = D.n + 1 ∧ NonNeg it.1 ∧ it.1.sum + ei.sum + (D.n + 1) ≤ B)
    {st : FrobState R} (hH : KeysFit D.n B st.H) :
    frobPass64 var' D p T ei m prec e st = frobPass var D p T ei m prec e st ∧
    ∀ st', frobPass var D p T ei m prec e st = .ok st' → KeysFit D.n B st'.H := by
  have hB1 : B < 2 ^ 63 := lt_of_le_of_lt (le_mul_of_one_le_left hB0 (by exact_mod_cast hp)) hB
  obtain ⟨h1, h2⟩ := frobNew64_eq (prec := prec) hv hp hB0 hB hei hT hH
  have hpe : i64 ((p : Int) * e) = .ok ((p : Int) * e) :=
    i64_nat (mul_nonneg (Int.natCast_nonneg p) (Int.natCast_nonneg e)) (mul_le_mul_of_nonneg_left he (Int.natCast_nonneg p)) hB
  rw [frobPass64, frobPass, h1]
  cases hN : frobNew var D p T ei m prec e st with
  | error x => exact ⟨by rw [Res.bind_error, Res.bind_error], fun st' h => (by cases h)⟩
  | ok H =>
    rw [Res.bind_ok, Res.bind_ok, hpe, Res.bind_ok]
    obtain ⟨h3, h4⟩ := foldlM_eq_keep (f := frobTerm64 var' D p e) (g := frobTerm var D p e)
      (P := fun s => KeysFit D.n B s.1) (Q := fun t => t.1.length = D.n + 1 ∧ NonNeg t.1 ∧ t.1.sum ≤ B)
      (fun s t hs ht => ⟨(frobTerm64_eq hv hB1 e ht).1, fun s' h => (frobTerm64_eq hv hB1 e ht).2 s' hs h⟩)
      H ([], st.last) (fun t ht => by cases ht) (h2 H hN)
    rw [h3]
    refine ⟨rfl, fun st' h => ?_⟩
    obtain ⟨s, hs, h⟩ := Res.bind_eq_ok.1 h
    cases h
    exact h4 s hs

theorem frobSmall64_eq (hv : VarJ64 p B var var') {T : List (MonMap R)} {prec e : Nat} (hp : 1 ≤ p) (hpe : p * e ≤ D.n) (hsize : D.n * D.d < 2 ^ 63) (hnd : D.n < D.d) (hei : ei.length = D.n + 1 ∧ NonNeg ei)
    (hT : ∀ P, T[e - m]? = some P → ∀ it ∈ P, it.1.length = D.n + 1 ∧ NonNeg it.1 ∧ it.1.sum + ei.sum + (D.n + 1) = (e : Int) * D.d)
    (fact : R) (F G0 : CVec R) :
    frobSmall64 var' solve D p T ei m prec e fact F G0 = frobSmall var solve D p T ei m prec e fact F G0 := by
  have h1 : (D.d : Int) * p * e ≤ ((D.n * D.d : Nat) : Int) := by
    have : p * e * D.d ≤ D.n * D.d := Nat.mul_le_mul_right _ hpe
    have h2 : ((p * e * D.d : Nat) : Int) ≤ ((D.n * D.d : Nat) : Int) := by exact_mod_cast this
    calc (D.d : Int) * p * e = ((p * e * D.d : Nat) : Int) := by push_cast; ring
      _ ≤ _ := h2
  have hsz : ((D.n * D.d : Nat) : Int) < 2 ^ 63 := by exact_mod_cast hsize
  have h0 : (0 : Int) ≤ (D.d : Int) * p * e := by
    have : (D.d : Int) * p * e = ((D.d * p * e : Nat) : Int) := by push_cast; ring
    rw [this]; exact Int.natCast_nonneg _
  rw [frobSmall64, frobSmall, hv.djmLast, hv.coef, hv.reuse, i64_nat h0 h1 hsz, Res.bind_ok]
  cases D.dict ((D.d : Int) * p * e - (D.n + 1)) with
  | error x => rfl
  | ok dict =>
    rw [Res.bind_ok, Res.bind_ok]
    cases var.djmLast m (e - m) prec with
    | error x => rfl
    | ok Dj =>
      rw [Res.bind_ok, Res.bind_ok]
      cases hP : aget T (e - m) with
      | error x => rfl
      | ok P =>
        rw [Res.bind_ok, Res.bind_ok]
        refine congrArg (fun x => x >>= _) ?_
        refine (foldlM_eq_keep (P := fun _ => True) (Q := fun it => it ∈ P) (fun G0 it _ hit => ⟨?_, fun _ _ => trivial⟩) P _ trivial
          (fun _ h => h)).1
        obtain ⟨i1, i2, i3⟩ := hT P (aget_some hP) it hit
        have hed : (p : Int) * ((e : Int) * D.d) ≤ ((D.n * D.d : Nat) : Int) := by
          calc (p : Int) * ((e : Int) * D.d) = (D.d : Int) * p * e := by ring
            _ ≤ _ := h1
        have hed0 : (0 : Int) ≤ (e : Int) * D.d := mul_nonneg (Int.natCast_nonneg _) (Int.natCast_nonneg _)
        have hed1 : (e : Int) * D.d < 2 ^ 63 :=
          lt_of_le_of_lt (le_mul_of_one_le_left hed0 (by exact_mod_cast hp : (1 : Int) ≤ p)) (lt_of_le_of_lt hed hsz)
        obtain ⟨a, mon, e1, e2, e3, e4, l, nn, sm⟩ := monomial64 ⟨i1, i2⟩ hei (by rw [i3]; exact hed1)
        have spm : Small (mulVec p mon) := Small.mul (Int.natCast_nonneg p) nn (by rw [sm, i3]; exact lt_of_le_of_lt hed hsz)
        have hn1 : D.n + 1 < 2 ^ 63 := by
          by_cases h : D.n = 0
          · omega
          · nlinarith
        have so : Small (List.replicate (D.n + 1) (1 : Int)) :=
          ⟨fun x hx => by rw [List.eq_of_mem_replicate hx]; norm_num, by
            simp only [List.sum_replicate, nsmul_eq_mul, mul_one]; exact_mod_cast hn1⟩
        obtain ⟨d1, d2, -⟩ := diff64_eq (by rw [mulVec, List.length_map, List.length_replicate, l]) spm so
        rw [e1, e2, Res.bind_ok, Res.bind_ok, e3, e4, Res.bind_ok, Res.bind_ok, mulVec64, spm.fit, Res.bind_ok, d1, d2]

theorem frobCore64_eq (hn : 1 ≤ D.n) (hnd : D.n < D.d) {T : List (MonMap R)} {coord prec : Nat} (hp : 1 ≤ p)
    (hv : ∀ B : Int, p * B < 2 ^ 63 → VarJ64 p B var var') (hsize : p * ((D.n + prec - 1) * D.d) < 2 ^ 63)
    (hbasis : ∀ ei, D.basis[coord]? = some ei → 1 ≤ poleOrder D.n D.d ei ∧ poleOrder D.n D.d ei ≤ D.n ∧
      IsTuple (D.n + 1) ((poleOrder D.n D.d ei : Int) * D.d - (D.n + 1)) ei)
    (hm : ∀ ei : IVec, ((sumVec ei + D.n + 1) / D.d).toNat = poleOrder D.n D.d ei) (hT : TableOK D.n D.d D.f T) :
    frobCore64 var' solve D p T coord prec = frobCore var solve D p T coord prec := by
  rw [frobCore64, frobCore]
  by_cases hprec : 0 < prec
  · rw [decide_eq_true hprec, check_true, Res.bind_ok, Res.bind_ok]
    cases hc : aget D.basis coord with
    | error x => rw [Res.bind_error, Res.bind_error]
    | ok ei =>
      obtain ⟨m1, m2, m3⟩ := hbasis ei (aget_some hc)
      rw [Res.bind_ok, Res.bind_ok, if_neg (by omega), if_neg (by omega)]
      simp only [hm]
      generalize poleOrder D.n D.d ei = m at m1 m2 m3 ⊢
      obtain ⟨e1, e2, e3⟩ := m3
      have hd1 : (1 : Int) ≤ D.d := by omega
      have s1 : p * ((m + prec - 1) * D.d) < 2 ^ 63 :=
        lt_of_le_of_lt (Nat.mul_le_mul_left _ (Nat.mul_le_mul_right _ (by omega))) hsize
      have s2 : (p : Int) * (((m + prec - 1 : Nat) : Int) * D.d) < 2 ^ 63 := by exact_mod_cast s1
      have s3 : D.n * D.d < 2 ^ 63 :=
        lt_of_le_of_lt (le_trans (Nat.mul_le_mul_right _ (by omega)) (Nat.le_mul_of_pos_left _ (by omega))) hsize
      have s4 : p * (m + prec - 1) < 2 ^ 63 :=
        lt_of_le_of_lt (Nat.mul_le_mul_left _ (Nat.le_mul_of_pos_right _ (by omega))) s1
      have c1 : i64 ((D.d : Int) * D.n) = .ok ((D.d : Int) * D.n) := by
        refine i64_nat (y := ((D.n * D.d : Nat) : Int)) (mul_nonneg (Int.natCast_nonneg _) (Int.natCast_nonneg _)) ?_ (by exact_mod_cast s3)
        rw [Nat.cast_mul, mul_comm]
      have c2 : i64 ((p : Int) * (m + prec - 1)) = .ok ((p : Int) * (m + prec - 1)) := by
        have : (p : Int) * (m + prec - 1) = ((p * (m + prec - 1) : Nat) : Int) := by
          rw [Nat.cast_mul, Nat.cast_sub (by omega), Nat.cast_add, Nat.cast_one]
        rw [this]
        exact i64_nat (Int.natCast_nonneg _) le_rfl (by exact_mod_cast s4)
      have hfull : var'.full = var.full := (hv _ s2).full
      have hTe : ∀ e P, m ≤ e → T[e - m]? = some P → ∀ it ∈ P,
          it.1.length = D.n + 1 ∧ NonNeg it.1 ∧ it.1.sum + ei.sum + (D.n + 1) = (e : Int) * D.d := by
        intro e P hme hPe it hit
        obtain ⟨w, -, dg⟩ := hT.entry _ _ hPe
        refine ⟨(w.1 it hit).1, (w.1 it hit).2, ?_⟩
        have h1 : it.1.sum = ((e - m : Nat) : Int) * D.d := dg it hit
        have h2 : ei.sum = (m : Int) * D.d - (D.n + 1) := e3
        rw [h1, h2, Nat.cast_sub hme]
        ring
      rw [c1, Res.bind_ok, c2, Res.bind_ok, hfull]
      cases binomial ((D.d : Int) * D.n - 1) D.n with
      | error x => rw [Res.bind_error, Res.bind_error]
      | ok len =>
        rw [Res.bind_ok, Res.bind_ok]
        by_cases hlen : len < 0
        · rw [if_pos hlen, if_pos hlen]
        · rw [if_neg hlen, if_neg hlen]
          rw [downTo_eq_keep (f := frobPass64 var' D p T ei m prec) (g := frobPass var D p T ei m prec)
            (hi := D.n / p + (m + prec - 1 - D.n / p)) (P := fun st => KeysFit D.n (((m + prec - 1 : Nat) : Int) * D.d) st.H)
            (fun e st he1 he2 hP => by
              have hem : (e : Int) ≤ ((m + prec - 1 : Nat) : Int) := by omega
              exact frobPass64_eq (hv _ s2) (mul_nonneg (Int.natCast_nonneg _) (Int.natCast_nonneg _)) s2 hp
                (le_trans hem (le_mul_of_one_le_right (Int.natCast_nonneg _) hd1)) ⟨e1, e2⟩
                (fun P hme hPe it hit => by
                  obtain ⟨a, b, c⟩ := hTe e P hme hPe it hit
                  exact ⟨a, b, by rw [c]; exact mul_le_mul_of_nonneg_right hem (Int.natCast_nonneg _)⟩) hP)
            _ _ le_rfl (fun t ht => by cases ht)]
          refine congrArg (fun k => _ >>= k) (funext fun st => ?_)
          refine congrArg (fun k => _ >>= k) (funext fun M => ?_)
          refine congrArg (fun k => _ >>= k) (funext fun F => ?_)
          refine congrArg (fun x => x >>= _) ?_
          refine downTo_eq_keep (hi := (if var.full then 0 else m - 1) + (D.n / p - (if var.full then 0 else m - 1))) (P := fun _ => True)
            (fun e s he1 he2 _ => ⟨?_, fun _ _ => trivial⟩) _ _ le_rfl trivial
          have hle : e ≤ D.n / p := by omega
          have hpe : p * e ≤ D.n := le_trans (Nat.mul_le_mul_left _ hle) (Nat.mul_div_le _ _)
          rw [frobLastPass64, frobLastPass, (hv _ s2).assertFact]
          refine congrArg (fun k => _ >>= k) (funext fun _ => ?_)
          by_cases hme : m ≤ e
          · rw [if_pos hme, if_pos hme, frobSmall64_eq (hv _ s2) hp hpe s3 hnd ⟨e1, e2⟩ (fun P hPe => hTe e P hme hPe)]
          · rw [if_neg hme, if_neg hme]
  · rw [decide_eq_false hprec, check_false, Res.bind_error, Res.bind_error]

end

end Verif
