import Verif.Lemmas.FrobTweak
import Verif.Lemmas.Djm
import Verif.Props.Batch

/-! The reductions of one term of the Frobenius functions. -/

namespace Verif

open Spec MvPolynomial

/-- What the loop needs to know about one step, `W i` being `tweak(p u - i v, r)`. -/
structure StepFacts (n d p r : Nat) (u v : IVec) (i : Nat) (dest y : IVec) : Prop where
  len : dest.length = n + 1
  nonneg : NonNeg dest
  tup : IsTuple (n + 1) d y
  supp : ∀ k, ev n dest k = 0 ∨ 0 < ev n y k
  add : ev n dest + ev n y = ev n (tweakNat (axmy p i u v) r)
  sum : dest.sum = p * u.sum - (i + 1) * d - r

section

variable {V : Type}

theorem redSteps_ok {n d p r : Nat} {u v : IVec} (hu : u.length = n + 1) (hb : Below u v) (hs : v.sum = d)
    {one : IVec → IVec → V → Res V} {last : Nat} (hlast : last ≤ p)
    (hr : (r : Int) ≤ p * u.sum - last * d) (I : IVec → V → Prop)
    (hone : ∀ i y G, i < last → StepFacts n d p r u v i (tweakNat (axmy p (i + 1) u v) r) y →
      I (tweakNat (axmy p i u v) r) G → ∃ G', one (tweakNat (axmy p (i + 1) u v) r) y G = .ok G' ∧
        I (tweakNat (axmy p (i + 1) u v) r) G') (cnt : Nat) :
    ∀ (i : Nat) (dest : IVec) (G : V), i + cnt = last → (cnt = 0 → dest = tweakNat (axmy p i u v) r) →
      I (tweakNat (axmy p i u v) r) G →
      ∃ G', redSteps one p r u v i cnt dest G = .ok (tweakNat (axmy p last u v) r, G') ∧
        I (tweakNat (axmy p last u v) r) G' := by
  induction cnt with
  | zero =>
    intro i dest G h1 h2 h3
    obtain rfl : i = last := by omega
    exact ⟨G, by rw [redSteps, h2 rfl], h3⟩
  | succ cnt ih =>
    intro i dest G h1 h2 h3
    have hd : (0 : Int) ≤ d := by omega
    have hsum := axmy_sum hb.length p (i + 1)
    obtain ⟨y, e, a1, a2, a3, a4, a5, a6⟩ := tweakAt_step (n := n) (d := d) (r := r) hu hb hs
      (show i < p by omega) (by
        rw [hsum, hs]
        have : ((i + 1 : Nat) : Int) ≤ last := by omega
        nlinarith)
    obtain ⟨G1, e1, i1⟩ := hone i y G (by omega) ⟨a1, a2, a3, a4, a5, a6⟩ h3
    obtain ⟨G', e2, i2⟩ := ih (i + 1) (tweakNat (axmy p (i + 1) u v) r) G1 (by omega) (fun _ => rfl) i1
    refine ⟨G', ?_, i2⟩
    rw [redSteps, tweakAt_eq hb.length, Res.bind_ok, tweakAt_eq hb.length, Res.bind_ok, e, Res.bind_ok, e1,
      Res.bind_ok, e2]

theorem zipWith_add_getD (a b : IVec) (h : a.length = b.length) (i : Nat) :
    (List.zipWith (· + ·) a b).getD i 0 = a.getD i 0 + b.getD i 0 := getD_zipWith_add a b h i

/-- `p (u - v) + (p - last) v` -/
theorem shift_base {u v : IVec} (h : Below u v) {p last : Nat} (hl : last ≤ p) :
    List.zipWith (· + ·) (mulVec p (List.zipWith (· - ·) u v)) (mulVec ((p : Int) - last) v) =
      axmy p last u v := by
  induction h with
  | nil => rfl
  | @cons x y xs ys hxy _ ih =>
    have e1 : mulVec (p : Int) (List.zipWith (· - ·) (x :: xs) (y :: ys)) =
      (p * (x - y)) :: mulVec (p : Int) (List.zipWith (· - ·) xs ys) := rfl
    have e2 : mulVec ((p : Int) - last) (y :: ys) = (((p : Int) - last) * y) :: mulVec ((p : Int) - last) ys := rfl
    rw [e1, e2, axmy_cons, List.zipWith_cons_cons, ih]
    congr 1; ring

theorem axmy_shift {u v : IVec} (h : Below u v) {p last r : Nat} (hr : r ≤ last) :
    List.zipWith (· + ·) (axmy p last u v) (mulVec r v) = axmy p (last - r) u v := by
  induction h with
  | nil => rfl
  | @cons x y xs ys hxy _ ih =>
    have e2 : mulVec (r : Int) (y :: ys) = ((r : Int) * y) :: mulVec (r : Int) ys := rfl
    rw [e2, axmy_cons, axmy_cons, List.zipWith_cons_cons, ih]
    congr 1; push_cast [Nat.cast_sub hr]; ring

theorem axmy_supp {u v : IVec} (h : Below u v) {p i : Nat} (hi : i ≤ p) :
    List.Forall₂ (fun x y => 0 ≤ x ∧ 0 ≤ y ∧ (y = 0 → x = 0)) (axmy p i u v) v := by
  induction h with
  | nil => exact List.Forall₂.nil
  | @cons x y xs ys hxy _ ih =>
    obtain ⟨h0, h1, h2⟩ := hxy
    rw [axmy_cons]
    have : (i : Int) ≤ p := by omega
    refine List.Forall₂.cons ⟨by nlinarith, h0, fun hy => ?_⟩ ih
    have : x = 0 := by
      by_contra hx
      have := h2.1 (by omega)
      omega
    rw [this, hy]; simp

theorem exists_pos_of_sum {v : IVec} (h : 0 < v.sum) : ∃ y ∈ v, 0 < y := by
  by_contra hc
  push Not at hc
  have : ∀ l : IVec, (∀ y ∈ l, y ≤ 0) → l.sum ≤ 0 := by
    intro l
    induction l with
    | nil => intro _; simp
    | cons a l ih =>
      intro h
      rw [List.sum_cons]
      have := h a (by simp)
      have := ih (fun y hy => h y (by simp [hy]))
      omega
  have := this v hc
  omega

/-- The batched branch: its destination is the position after `last - r` steps, and the vector handed over is
at position 0. -/
theorem poly_branch {n d p r last : Nat} {u v : IVec} (hu : u.length = n + 1) (hb : Below u v)
    (hs : v.sum = d) (hd : 0 < d) (hlast : last ≤ p) (hr : r < last) :
    List.zipWith (· + ·) (axmy p last u v) (tweakNat (mulVec r v) r) = tweakNat (axmy p (last - r) u v) r ∧
    (∀ k, ev n (tweakNat (axmy p (last - r) u v) r) k = 0 ∨ 0 < ev n v k) ∧
    (fun k => ev n (tweakNat (axmy p (last - r) u v) r) k + ((last - r : Nat) : Int) * ev n v k) =
      ev n (tweakNat (axmy p 0 u v) r) := by
  have hex := exists_pos_of_sum (v := v) (by omega)
  have h1 := tweak_shift (axmy_supp hb hlast) r hex
  rw [axmy_shift hb hr.le] at h1
  -- from position 0
  have h2 := tweak_shift (axmy_supp hb (show r ≤ p by omega)) r hex
  rw [axmy_shift hb (le_refl r), Nat.sub_self] at h2
  have hlt : (tweakNat (mulVec (r : Int) v) r).length = n + 1 := by
    rw [tweakNat_length, mulVec_length, hb.length, hu]
  have hla : ∀ i, (axmy p i u v).length = n + 1 := fun i => by rw [axmy_length hb.length, hu]
  have hax : ∀ i (k : Nat), (axmy p i u v).getD k 0 = p * u.getD k 0 - i * v.getD k 0 := by
    intro i k
    clear h1 h2 hs hu hex hlt hla
    induction hb generalizing k with
    | nil => simp [axmy_nil]
    | cons hxy _ ih =>
      rw [axmy_cons]
      cases k with
      | zero => simp
      | succ k => simpa using ih k
  refine ⟨h1.symm, fun k => ?_, ?_⟩
  · rw [h1]
    obtain ⟨g1, g2, g3⟩ := hb.getD k
    have hev : ev n (List.zipWith (· + ·) (axmy p last u v) (tweakNat (mulVec (r : Int) v) r)) k =
        (axmy p last u v).getD k 0 + (tweakNat (mulVec (r : Int) v) r).getD k 0 :=
      zipWith_add_getD _ _ (by rw [hla, hlt]) k
    rcases Int.lt_or_eq_of_le g1 with h | h
    · exact Or.inr h
    · left
      rw [hev, hax]
      have hu0 : u.getD k 0 = 0 := by
        have hn := (hb.getD k).2.1
        by_contra hne
        have := g3.1 (by omega)
        omega
      have hm : (mulVec (r : Int) v).getD k 0 = 0 := by
        have : (mulVec (r : Int) v).getD k 0 = r * v.getD k 0 := by
          simp only [mulVec, List.getD_eq_getElem?_getD, List.getElem?_map]
          cases v[k.val]? <;> simp
        rw [this, ← h, mul_zero]
      have hp := tweakNat_props (mulVec (r : Int) v) r (by
        intro x hx
        simp only [mulVec, List.mem_map] at hx
        obtain ⟨y, hy, rfl⟩ := hx
        obtain ⟨j, hj, rfl⟩ := List.getElem_of_mem hy
        have := (hb.getD j).1
        rw [getD_getElem _ _ _ hj] at this
        positivity)
      have hle := hp.2.1.2
      have hkl : k.val < n + 1 := k.isLt
      have h5 := hle k.val (by omega) (by rw [mulVec_length, hb.length]; omega)
      have h6 := hp.1 _ (List.getElem_mem (show k.val < (tweakNat (mulVec (r : Int) v) r).length by omega))
      rw [getD_getElem _ _ _ (by rw [mulVec_length, hb.length]; omega)] at hm
      rw [getD_getElem _ _ _ (show k.val < (tweakNat (mulVec (r : Int) v) r).length by omega), hu0, ← h]
      simp only [mul_zero, sub_zero, zero_add]
      omega
  · funext k
    rw [h1, h2]
    have e1 : ev n (List.zipWith (· + ·) (axmy p last u v) (tweakNat (mulVec (r : Int) v) r)) k =
        (axmy p last u v).getD k 0 + (tweakNat (mulVec (r : Int) v) r).getD k 0 :=
      zipWith_add_getD _ _ (by rw [hla, hlt]) k
    have e2 : ev n (List.zipWith (· + ·) (axmy p r u v) (tweakNat (mulVec (r : Int) v) r)) k =
        (axmy p r u v).getD k 0 + (tweakNat (mulVec (r : Int) v) r).getD k 0 :=
      zipWith_add_getD _ _ (by rw [hla, hlt]) k
    rw [e1, e2, hax, hax, ev, Nat.cast_sub hr.le]
    ring

/-- The whole `switch`, for any invariant kept by the single and the batched reductions. -/
theorem termRed_ok {n d p r : Nat} {u v : IVec} (hu : u.length = n + 1) (hb : Below u v) (hs : v.sum = d)
    (hd : 0 < d) {one : IVec → IVec → V → Res V} {batch : IVec → IVec → Int → V → Res V} (kind : LoopKind)
    {last : Nat} (h1 : 1 ≤ last) (hlast : last ≤ p)
    (hr : (r : Int) ≤ p * u.sum - last * d) (I : IVec → V → Prop)
    (hone : ∀ i y G, i < last → StepFacts n d p r u v i (tweakNat (axmy p (i + 1) u v) r) y →
      I (tweakNat (axmy p i u v) r) G → ∃ G', one (tweakNat (axmy p (i + 1) u v) r) y G = .ok G' ∧
        I (tweakNat (axmy p (i + 1) u v) r) G')
    (hbatch : ∀ (k : Nat) (dest : IVec) G, k ≤ last → dest.length = n + 1 → NonNeg dest →
      (∀ i, ev n dest i = 0 ∨ 0 < ev n v i) →
      (fun i => ev n dest i + (k : Int) * ev n v i) = ev n (tweakNat (axmy p 0 u v) r) →
      dest.sum = p * u.sum - k * d - r →
      I (tweakNat (axmy p 0 u v) r) G → ∃ G', batch dest v k G = .ok G' ∧ I dest G')
    (G : V) (hG : I (tweakNat (axmy p 0 u v) r) G) :
    ∃ G', termRed one batch kind p r last u v G = .ok (tweakNat (axmy p last u v) r, G') ∧
      I (tweakNat (axmy p last u v) r) G' := by
  unfold termRed
  split
  · rename_i hc
    obtain ⟨-, hc⟩ := hc
    have hrl : r < last := by omega
    obtain ⟨b1, b2, b3⟩ := poly_branch (n := n) hu hb hs hd hlast hrl
    have hul : u.length = v.length := hb.length.symm
    have hla : ∀ i, (axmy p i u v).length = n + 1 := fun i => by rw [axmy_length hb.length, hu]
    have hn := axmy_nonneg hb (show last - r ≤ p by omega)
    have hsum := axmy_sum hb.length p (last - r)
    obtain ⟨q1, -, q3⟩ := tweakNat_props _ r hn
    rw [hsum, hs, min_eq_left (by
      have : ((last - r : Nat) : Int) ≤ last := by omega
      nlinarith)] at q3
    obtain ⟨G1, e1, i1⟩ := hbatch (last - r) (tweakNat (axmy p (last - r) u v) r) G (by omega)
      (by rw [tweakNat_length, hla]) q1 b2 b3 q3 hG
    obtain ⟨G', e2, i2⟩ := redSteps_ok hu hb hs hlast hr I hone r (last - r)
      (tweakNat (axmy p (last - r) u v) r) G1 (by omega) (fun _ => rfl) i1
    refine ⟨G', ?_, i2⟩
    have hl1 : (mulVec (p : Int) (List.zipWith (· - ·) u v)).length = (mulVec ((p : Int) - last) v).length := by
      rw [mulVec_length, mulVec_length, List.length_zipWith, hul, min_self]
    rw [subVec_ok hul, Res.bind_ok, tweak, if_neg (by omega), Res.bind_ok, addVec_ok hl1, Res.bind_ok,
      shift_base hb hlast, Int.toNat_natCast,
      addVec_ok (by rw [hla, tweakNat_length, mulVec_length, hb.length, hu]), Res.bind_ok,
      addVec_ok (by rw [hla, mulVec_length, hb.length, hu]), Res.bind_ok, axmy_shift hb hrl.le, tweak,
      if_neg (by omega), Res.bind_ok, Int.toNat_natCast, b1, decide_eq_true rfl, check_true, Res.bind_ok]
    rw [show (last : Int) - r = ((last - r : Nat) : Int) by omega, e1, Res.bind_ok]
    exact e2
  · exact redSteps_ok hu hb hs hlast hr I hone last 0 [] G (by omega) (by omega) hG

end

end Verif
