import Verif.Model.NDWords
import Verif.Props.SolveWords

/-!
The routines of Model/NDWords on words that represent matrices modulo `q`.
-/

namespace Verif

open Spec

variable {q : Nat}

/-- The words of the `d * d` matrix `A`. -/
def matW (d : Nat) (A : CMat (ZMod q)) : List (List Nat) := wordRows (Matrix.of (fun i j : Fin d => A.e i j))

theorem matW_def (d : Nat) (A : CMat (ZMod q)) : matW d A = List.ofFn (fun i : Fin d => words (fun j : Fin d => A.e i j)) := rfl

theorem aget2_matW {d : Nat} (A : CMat (ZMod q)) {i j : Nat} (hi : i < d) (hj : j < d) : aget2 (matW d A) i j = .ok (A.e i j).val :=
  aget2_wordRows _ hi hj

theorem aget_matW {d : Nat} (A : CMat (ZMod q)) {i : Nat} (hi : i < d) : aget (matW d A) i = .ok (words (fun j : Fin d => A.e i j)) :=
  aget_wordRows _ (⟨i, hi⟩ : Fin d)

/-- The words of the first `d` entries of `H`. -/
def vecW (d : Nat) (H : CVec (ZMod q)) : List Nat := words (fun i : Fin d => H.e i)

/-- The words of the matrices `F 0, ..., F (c-1)`. -/
def tabW (d c : Nat) (F : Nat → CMat (ZMod q)) : List (List (List Nat)) := List.ofFn (fun i : Fin c => matW d (F i))

/-- A matrix of size `d * d`. -/
def SqMat (d : Nat) (A : CMat (ZMod q)) : Prop := A.rows = d ∧ A.cols = d

theorem vecW_length (d : Nat) (H : CVec (ZMod q)) : (vecW d H).length = d := words_length _

theorem aget_ofFn {α : Type} {k : Nat} (f : Fin k → α) {i : Nat} (hi : i < k) : aget (List.ofFn f) i = .ok (f ⟨i, hi⟩) := by
  rw [aget_of_lt _ _ (by rw [List.length_ofFn]; exact hi)]
  simp

theorem set_ofFn {α : Type} {k : Nat} (f : Fin k → α) (i : Nat) (x : α) :
    (List.ofFn f).set i x = List.ofFn (fun j : Fin k => if (j : Nat) = i then x else f j) := by
  refine List.ext_getElem (by simp) (fun a h1 h2 => ?_)
  rw [List.getElem_set, List.getElem_ofFn, List.getElem_ofFn]
  by_cases h : i = a
  · rw [if_pos h, if_pos h.symm]
  · rw [if_neg h, if_neg (Ne.symm h)]

theorem aset_ofFn {α : Type} {k : Nat} (f : Fin k → α) {i : Nat} (hi : i < k) (x : α) :
    aset (List.ofFn f) i x = .ok (List.ofFn (fun j : Fin k => if (j : Nat) = i then x else f j)) := by
  rw [aset_of_lt _ _ _ (by rw [List.length_ofFn]; exact hi), set_ofFn]

theorem aget_tabW {d c : Nat} (F : Nat → CMat (ZMod q)) {i : Nat} (hi : i < c) : aget (tabW d c F) i = .ok (matW d (F i)) :=
  aget_ofFn _ hi

theorem aset_tabW {d c : Nat} (F : Nat → CMat (ZMod q)) {i : Nat} (hi : i < c) (X : CMat (ZMod q)) :
    aset (tabW d c F) i (matW d X) = .ok (tabW d c (fun j => if j = i then X else F j)) := by
  rw [tabW, aset_ofFn _ hi, tabW]
  congr 2
  funext j
  by_cases h : (j : Nat) = i
  · rw [if_pos h, if_pos h]
  · rw [if_neg h, if_neg h]

theorem matW_congr {d : Nat} {A B : CMat (ZMod q)} (h : ∀ i j, i < d → j < d → A.e i j = B.e i j) : matW d A = matW d B := by
  rw [matW_def, matW_def]
  congr 1
  funext i
  congr 1
  funext j
  exact h i j i.2 j.2

theorem vecW_congr {d : Nat} {A B : CVec (ZMod q)} (h : ∀ i, i < d → A.e i = B.e i) : vecW d A = vecW d B := by
  rw [vecW, vecW]
  congr 1
  funext i
  exact h i i.2

/-! ### products -/

theorem matVec_words [NeZero q] {d : Nat} {A : CMat (ZMod q)} {H : CVec (ZMod q)} (hA : SqMat d A) (hH : H.len = d) {res : List Nat}
    (hres : res.length = d) : ∃ H', A.mulVec H = .ok H' ∧ H'.len = d ∧ nmodMatVec q res (matW d A) d (vecW d H) = .ok (vecW d H') ∧
      ∀ i, i < d → H'.e i = ∑ j : Fin d, A.e i j * H.e j := by
  have he : ∀ i, i < d → (CVec.mk' A.rows (fun i => sumLoop A.cols (fun k => A.e i k * H.e k))).e i = ∑ j : Fin d, A.e i j * H.e j := by
    intro i hi
    show (if i < A.rows then _ else _) = _
    rw [if_pos (by rw [hA.1]; exact hi), hA.2, sumLoop_eq_sum_fin]
  refine ⟨CVec.mk' A.rows (fun i => sumLoop A.cols (fun k => A.e i k * H.e k)), ?_, hA.1, ?_, he⟩
  · rw [CMat.mulVec, if_pos (by rw [hA.2, hH])]
  · rw [matW, vecW, C80_matvec _ _ _ hres]
    congr 1
    rw [vecW]
    congr 1
    funext i
    rw [he i i.2]
    rfl

theorem vecAddmul_words [NeZero q] {d : Nat} (a b : Fin d → ZMod q) {c : Nat} (hc : c < q) :
    nmodVecAddmul q (words a) (words b) d c = .ok (words (fun i => a i + (c : ZMod q) * b i)) := by
  have hm : 0 < q := Nat.pos_of_neZero q
  refine mapM_ofFn _ _ (fun i => ?_)
  rw [aget_words, Res.bind_ok, aget_words, Res.bind_ok, nmodMul, if_pos ⟨ZMod.val_lt _, hc⟩, Res.bind_ok, nmodAdd,
    if_pos ⟨ZMod.val_lt _, Nat.mod_lt _ hm⟩, ZMod.val_add, ZMod.val_mul, ZMod.val_cast_of_lt hc, mul_comm c]

/-! ### few steps -/

theorem natPow_val [NeZero q] (x i : Nat) (hx : x < q) : nmodMul q ((x : ZMod q) ^ i).val x = .ok ((x : ZMod q) ^ (i + 1)).val := by
  rw [nmodMul, if_pos ⟨ZMod.val_lt _, hx⟩, pow_succ, ZMod.val_mul, ZMod.val_cast_of_lt hx]

theorem shortStep_words [NeZero q] {n d x : Nat} (hq : 2 ≤ q) (hd : 0 < d) (hx : x < q) {M : Nat → CMat (ZMod q)}
    (hM : ∀ i, i < n + 2 → SqMat d (M i)) {G : CVec (ZMod q)} (hG : G.len = d) {b b' : List Nat} (hb : b.length = d) (hb' : b'.length = d) :
    ∃ G' c c', ndPolyStep id n M x G = .ok G' ∧ G'.len = d ∧ c.length = d ∧ c'.length = d ∧
      shortStep q n d (tabW d (n + 2) M) x (vecW d G, b, b') = .ok (vecW d G', c, c') := by
  have hm : 0 < q := Nat.pos_of_neZero q
  obtain ⟨G0, e1, l1, w1, -⟩ := matVec_words (hM 0 (by omega)) hG hb
  -- the loop over the powers, in the model and in words
  have key : ∀ t, t ≤ n → ∃ (Gt : CVec (ZMod q)) (c' : List Nat), Gt.len = d ∧ c'.length = d ∧
      forRange t G0 (fun i res => do
        let Gi ← (M (i + 1)).mulVec G
        if Gi.len = res.len then .ok (CVec.mk' res.len (fun r => res.e r + (x : ZMod q) ^ (i + 1) * Gi.e r))
        else .error .abort) = .ok Gt ∧
      shortPowers q t d (tabW d (n + 2) M) (vecW d G) x (vecW d G0) b' = .ok (((x : ZMod q) ^ t).val, vecW d Gt, c') := by
    intro t
    induction t with
    | zero =>
      intro _
      refine ⟨G0, b', l1, hb', rfl, ?_⟩
      rw [shortPowers, pow_zero]
      have h1 : (1 : ZMod q).val = 1 := by
        have := ZMod.val_cast_of_lt (n := q) (a := 1) (by omega)
        rwa [Nat.cast_one] at this
      rw [h1]
      rfl
    | succ t ih =>
      intro ht
      obtain ⟨Gt, c', g1, g2, g3, g4⟩ := ih (by omega)
      obtain ⟨Gi, i1, i2, i3, -⟩ := matVec_words (hM (t + 1) (by omega)) hG g2
      refine ⟨CVec.mk' Gt.len (fun r => Gt.e r + (x : ZMod q) ^ (t + 1) * Gi.e r), vecW d Gi, g1, vecW_length _ _, ?_, ?_⟩
      · rw [forRange, g3, Res.bind_ok, i1, Res.bind_ok, if_pos (by rw [i2, g1])]
      · rw [shortPowers] at g4
        rw [shortPowers, forRange, g4, Res.bind_ok]
        simp only
        rw [natPow_val x t hx, Res.bind_ok, aget_tabW M (by omega), Res.bind_ok, i3, Res.bind_ok, vecW, vecW,
          vecAddmul_words _ _ (ZMod.val_lt _), Res.bind_ok]
        show Except.ok (_, _, _) = Except.ok (_, _, _)
        congr 3
        rw [vecW]
        congr 1
        funext r
        show _ = (if (r : Nat) < Gt.len then _ else _)
        rw [if_pos (by rw [g1]; exact r.2), ZMod.natCast_val, ZMod.cast_id]
  obtain ⟨G1, c', g1, g2, g3, g4⟩ := key n le_rfl
  have hl := hM (n + 1) (by omega)
  refine ⟨CVec.mk' G1.len (fun r => id (G1.e r + if r = 0 then
      (x : ZMod q) ^ (n + 1) * sumLoop G.len (fun c => (M (n + 1)).e 0 c * G.e c) else 0)), vecW d G, c', ?_, g1, vecW_length _ _, g2, ?_⟩
  · rw [ndPolyStep, e1, Res.bind_ok, g3, Res.bind_ok, if_neg (by rw [hl.1, g1]; omega), if_pos (by rw [hl.2, hG])]
  · rw [shortStep]
    simp only
    rw [aget_tabW M (by omega), Res.bind_ok, w1, Res.bind_ok, g4, Res.bind_ok]
    simp only
    rw [natPow_val x n hx, Res.bind_ok, aget_tabW M (by omega), Res.bind_ok, aget_matW _ hd, Res.bind_ok]
    rw [vecW, C80_dot, Res.bind_ok, nmodMul, if_pos ⟨ZMod.val_lt _, ZMod.val_lt _⟩, Res.bind_ok, ← ZMod.val_mul]
    rw [vecW, aget_words _ (⟨0, hd⟩ : Fin d), Res.bind_ok, nmodAdd, if_pos ⟨ZMod.val_lt _, ZMod.val_lt _⟩, Res.bind_ok, ← ZMod.val_add,
      words, aset_ofFn _ hd, Res.bind_ok]
    show Except.ok (_, _, _) = Except.ok (_, _, _)
    congr 2
    rw [vecW, words]
    congr 1
    funext r
    have hrl : (r : Nat) < G1.len := by rw [g1]; exact r.2
    show _ = ZMod.val (if (r : Nat) < G1.len then _ else _)
    rw [if_pos hrl]
    by_cases hr : (r : Nat) = 0
    · simp only [id, hG, sumLoop_eq_sum_fin, mul_comm ((x : ZMod q) ^ (n + 1)), hr, if_true]
    · simp only [if_neg hr, id, add_zero]

theorem shortLoop_words [NeZero q] {n d : Nat} (hq : 2 ≤ q) (hd : 0 < d) {M : Nat → CMat (ZMod q)}
    (hM : ∀ i, i < n + 2 → SqMat d (M i)) (k : Nat) (hk : k ≤ q) {G : CVec (ZMod q)} (hG : G.len = d) {b b' : List Nat}
    (hb : b.length = d) (hb' : b'.length = d) :
    ∃ G' s, ndPolyLoop id n M k G = .ok G' ∧ G'.len = d ∧
      shortLoop q n d (tabW d (n + 2) M) k (vecW d G, b, b') = .ok (vecW d G', s) := by
  induction k generalizing G b b' with
  | zero => exact ⟨G, (b, b'), rfl, hG, rfl⟩
  | succ k ih =>
    obtain ⟨G1, c, c', h1, h2, h3, h4, h5⟩ := shortStep_words hq hd (show k < q by omega) hM hG hb hb'
    obtain ⟨G', s, g1, g2, g3⟩ := ih (by omega) h2 h3 h4
    refine ⟨G', s, ?_, g2, ?_⟩
    · rw [ndPolyLoop, h1, Res.bind_ok, g1]
    · rw [shortLoop, h5, Res.bind_ok, g3]

/-! ### finite differences -/

theorem boxWords_eq {d : Nat} [NeZero q] (A : CMat (ZMod q)) : boxWords d (matW d A) = .ok (boxOf d A) := by
  have inner : ∀ (j : Nat) (hj : j < d) (t : Nat), t ≤ d → ∀ b : Nat × Nat, forRange t b (fun l b => do
      let x ← aget2 (matW d A) j l
      pure (if x ≠ 0 then (if b.1 ≤ j then j + 1 else b.1, if l < b.2 then l else b.2) else b)) =
      .ok ((List.range t).foldl (fun b l => if A.e j l ≠ 0 then (if b.1 ≤ j then j + 1 else b.1, if l < b.2 then l else b.2) else b) b) := by
    intro j hj t
    induction t with
    | zero => intro _ b; rfl
    | succ t ih =>
      intro ht b
      rw [forRange, ih (by omega), Res.bind_ok, aget2_matW A hj (show t < d by omega), Res.bind_ok, List.range_succ,
        List.foldl_append]
      simp only [List.foldl_cons, List.foldl_nil]
      show Except.ok _ = Except.ok _
      congr 1
      refine if_congr (not_congr ?_) rfl rfl
      exact ZMod.val_eq_zero _
  have outer : ∀ t, t ≤ d → forRange t (0, d) (fun j b => forRange d b (fun l b => do
      let x ← aget2 (matW d A) j l
      pure (if x ≠ 0 then (if b.1 ≤ j then j + 1 else b.1, if l < b.2 then l else b.2) else b))) =
      .ok ((List.range t).foldl (fun b j => (List.range d).foldl (fun b l =>
        if A.e j l ≠ 0 then (if b.1 ≤ j then j + 1 else b.1, if l < b.2 then l else b.2) else b) b) (0, d)) := by
    intro t
    induction t with
    | zero => intro _; rfl
    | succ t ih =>
      intro ht
      rw [forRange, ih (by omega), Res.bind_ok, inner t (by omega) d le_rfl, List.range_succ, List.foldl_append]
      simp only [List.foldl_cons, List.foldl_nil]
  rw [boxWords, outer d le_rfl, boxOf]

theorem boxOf_le {d : Nat} (A : CMat (ZMod q)) : (boxOf d A).1 ≤ d ∧ (boxOf d A).2 ≤ d := by
  have inner : ∀ (j : Nat) (_ : j < d) (L : List Nat) (b : Nat × Nat), b.1 ≤ d ∧ b.2 ≤ d →
      (L.foldl (fun b l => if A.e j l ≠ 0 then (if b.1 ≤ j then j + 1 else b.1, if l < b.2 then l else b.2) else b) b).1 ≤ d ∧
      (L.foldl (fun b l => if A.e j l ≠ 0 then (if b.1 ≤ j then j + 1 else b.1, if l < b.2 then l else b.2) else b) b).2 ≤ d := by
    intro j hj L
    induction L with
    | nil => intro b hb; exact hb
    | cons l L ih =>
      intro b hb
      rw [List.foldl_cons]
      refine ih _ ?_
      split
      · constructor
        · show (if b.1 ≤ j then j + 1 else b.1) ≤ d
          split <;> omega
        · show (if l < b.2 then l else b.2) ≤ d
          split <;> omega
      · exact hb
  have outer : ∀ (L : List Nat), (∀ j ∈ L, j < d) → ∀ b : Nat × Nat, b.1 ≤ d ∧ b.2 ≤ d →
      (L.foldl (fun b j => (List.range d).foldl (fun b l =>
        if A.e j l ≠ 0 then (if b.1 ≤ j then j + 1 else b.1, if l < b.2 then l else b.2) else b) b) b).1 ≤ d ∧
      (L.foldl (fun b j => (List.range d).foldl (fun b l =>
        if A.e j l ≠ 0 then (if b.1 ≤ j then j + 1 else b.1, if l < b.2 then l else b.2) else b) b) b).2 ≤ d := by
    intro L
    induction L with
    | nil => intro _ b hb; exact hb
    | cons j L ih =>
      intro hL b hb
      rw [List.foldl_cons]
      exact ih (fun i hi => hL i (List.mem_cons_of_mem _ hi)) _ (inner j (hL j List.mem_cons_self) _ b hb)
  exact outer _ (fun j hj => List.mem_range.1 hj) (0, d) ⟨Nat.zero_le _, le_rfl⟩

theorem trimWords_eq {d len : Nat} (box : Nat → Nat × Nat) (c : Nat) (hc : c ≤ len) :
    trimWords d (List.ofFn (fun i : Fin len => box i)) c = trimLen d box c := by
  induction c with
  | zero => rfl
  | succ c ih =>
    rw [trimWords, trimLen, aget_ofFn _ (show c < len by omega), Res.bind_ok, ih (by omega)]

theorem matAddmul_words [NeZero q] {d : Nat} (A B : CMat (ZMod q)) {c : Nat} (hc : c < q) :
    nmodMatAddmul q d (matW d A) (matW d B) c = .ok (matW d ⟨d, d, fun i j => A.e i j + (c : ZMod q) * B.e i j⟩) := by
  have hm : 0 < q := Nat.pos_of_neZero q
  refine mapM_ofFn _ _ (fun i => mapM_ofFn _ _ (fun j => ?_))
  rw [aget2_matW A i.2 j.2, Res.bind_ok, aget2_matW B i.2 j.2, Res.bind_ok, nmodMul, if_pos ⟨ZMod.val_lt _, hc⟩, Res.bind_ok,
    nmodAdd, if_pos ⟨ZMod.val_lt _, Nat.mod_lt _ hm⟩]
  show _ = Except.ok (A.e i j + (c : ZMod q) * B.e i j).val
  rw [ZMod.val_add, ZMod.val_mul, ZMod.val_cast_of_lt hc, mul_comm c]

theorem startWords_eq [NeZero q] {d c k len l : Nat} (M : Nat → CMat (ZMod q)) (hc : c ≤ len) (hl : k - c + l < q) :
    startWords q d c k (tabW d len M) l = .ok (matW d (fdStart d c (k - c) M l)) := by
  have key : ∀ t, t ≤ c → forRange t (List.replicate d (List.replicate d 0)) (fun i F => do
      let t ← nmodPow q (k - c + l) i
      let Mi ← aget (tabW d len M) i
      nmodMatAddmul q d F Mi t) = .ok (matW d ⟨d, d, fun r s => sumLoop t (fun i => ((k - c + l : Nat) : ZMod q) ^ i * (M i).e r s)⟩) := by
    intro t
    induction t with
    | zero =>
      intro _
      show Except.ok _ = Except.ok _
      congr 1
      rw [matW_def]
      refine List.ext_getElem (by simp) (fun i h1 h2 => ?_)
      rw [List.getElem_replicate, List.getElem_ofFn]
      refine List.ext_getElem (by simp [words]) (fun j h1 h2 => ?_)
      simp [words, sumLoop]
    | succ t ih =>
      intro ht
      rw [forRange, ih (by omega), Res.bind_ok, nmodPow, if_pos hl, Res.bind_ok, aget_tabW M (by omega), Res.bind_ok,
        matAddmul_words _ _ (Nat.mod_lt _ (Nat.pos_of_neZero q))]
      congr 1
      refine matW_congr (fun i j _ _ => ?_)
      show sumLoop t _ + _ = sumLoop t _ + _
      congr 2
      rw [ZMod.natCast_mod]
      push_cast
      rfl
  rw [startWords, key c le_rfl]
  congr 1
  refine matW_congr (fun i j hi hj => ?_)
  show _ = (if i < d ∧ j < d then _ else _)
  rw [if_pos ⟨hi, hj⟩]

theorem firstWords_eq [NeZero q] {d len : Nat} {F : Nat → CMat (ZMod q)} (hF : ∀ i, SqMat d (F i)) (c : Nat) (hc : c ≤ len)
    {H : CVec (ZMod q)} (hH : H.len = d) {b : List Nat} (hb : b.length = d) :
    ∃ H' b', fdFirst F c H = .ok H' ∧ H'.len = d ∧ b'.length = d ∧ firstWords q d (tabW d len F) c (vecW d H, b) = .ok (vecW d H', b') := by
  induction c generalizing H b with
  | zero => exact ⟨H, b, rfl, hH, hb, rfl⟩
  | succ c ih =>
    obtain ⟨H1, h1, h2, h3, -⟩ := matVec_words (hF c) hH hb
    obtain ⟨H', b', g1, g2, g3, g4⟩ := ih (by omega) h2 (vecW_length d H)
    refine ⟨H', b', ?_, g2, g3, ?_⟩
    · rw [fdFirst, h1, Res.bind_ok, g1]
    · rw [firstWords, aget_tabW F (by omega), Res.bind_ok]
      simp only
      rw [h3, Res.bind_ok, g4]

theorem sq_subBox {d a b : Nat} {A B : CMat (ZMod q)} (hA : SqMat d A) : SqMat d (subBox A B a b) := hA

theorem sq_update {d i : Nat} {F : Nat → CMat (ZMod q)} {X : CMat (ZMod q)} (hF : ∀ i, SqMat d (F i)) (hX : SqMat d X) :
    ∀ j, SqMat d (if j = i then X else F j) := by
  intro j
  split
  · exact hX
  · exact hF j

theorem matSub_words [NeZero q] {d : Nat} {A B : CMat (ZMod q)} (hA : SqMat d A) :
    nmodMatSub q d d (matW d A) id (fun _ => matW d B) = .ok (matW d (subBox A B d 0)) := by
  rw [matW, matW, (C80_sub _ _ _ (wordRows_shape (Matrix.of (fun i j : Fin d => A.e i j))).1 (wordRows_shape (Matrix.of (fun i j : Fin d => A.e i j))).2).2.1]
  congr 1
  rw [matW]
  congr 1
  funext i j
  show A.e i j - B.e i j = if _ then _ else _
  rw [if_pos ⟨i.2, Nat.zero_le _, by rw [hA.1]; exact i.2, by rw [hA.2]; exact j.2⟩]

theorem passWords_eq [NeZero q] {d l len : Nat} (c : Nat) (hc : l + c ≤ len) {F : Nat → CMat (ZMod q)} (hF : ∀ i, SqMat d (F i)) :
    passWords q d l c (tabW d len F) = .ok (tabW d len (fdPass d l c F)) ∧ ∀ i, SqMat d (fdPass d l c F i) := by
  induction c generalizing F with
  | zero => exact ⟨rfl, hF⟩
  | succ c ih =>
    have h2 := ih (by omega) (sq_update (i := l + c) hF (sq_subBox (a := d) (b := 0) (B := F (l + c - 1)) (hF (l + c))))
    refine ⟨?_, h2.2⟩
    rw [passWords, aget_tabW F (by omega), Res.bind_ok, aget_tabW F (by omega), Res.bind_ok, matSub_words (hF _), Res.bind_ok,
      aset_tabW F (by omega), Res.bind_ok, h2.1]
    rfl

theorem tableWords_eq [NeZero q] {d c : Nat} {F : Nat → CMat (ZMod q)} (hF : ∀ i, SqMat d (F i)) :
    tableWords q d c (tabW d c F) = .ok (tabW d c (fdTable d c F)) ∧ ∀ i, SqMat d (fdTable d c F i) := by
  have key : ∀ t, t ≤ c - 1 → forRange t (tabW d c F) (fun i F => passWords q d (i + 1) (c - 1 - i) F) =
      .ok (tabW d c ((List.range t).foldl (fun F i => fdPass d (i + 1) (c - 1 - i) F) F)) ∧
      ∀ i, SqMat d ((List.range t).foldl (fun F i => fdPass d (i + 1) (c - 1 - i) F) F i) := by
    intro t
    induction t with
    | zero => intro _; exact ⟨rfl, hF⟩
    | succ t ih =>
      intro ht
      obtain ⟨h1, h2⟩ := ih (by omega)
      have h3 := passWords_eq (l := t + 1) (len := c) (c - 1 - t) (by omega) h2
      rw [forRange, h1, Res.bind_ok, List.range_succ, List.foldl_append]
      exact h3
  exact key (c - 1) le_rfl

theorem words_drop {k : Nat} (a : Fin k → ZMod q) {t : Nat} (ht : t ≤ k) :
    (words a).drop t = words (fun i : Fin (k - t) => a ⟨t + i, by omega⟩) := by
  refine List.ext_getElem (by simp [words]) (fun i h1 h2 => ?_)
  simp [words]

theorem subBoxWords_eq [NeZero q] {d a b : Nat} (hd : 0 < d) (ha : a ≤ d) (hb : b ≤ d) {A B : CMat (ZMod q)} (hA : SqMat d A) :
    subBoxWords q d (matW d A) (matW d B) a b = .ok (matW d (subBox A B a b)) := by
  rw [subBoxWords, if_neg (by omega)]
  have key : ∀ t, t ≤ d → forRange t (matW d A) (fun i C => do
      let x ← aget C i
      let y ← aget (matW d B) i
      let z ← nmodVecSub q (x.drop b) (y.drop b) (d - b)
      aset C i (x.take b ++ z)) = .ok (matW d (subBox A B t b)) := by
    intro t
    induction t with
    | zero =>
      intro _
      show Except.ok _ = Except.ok _
      exact congrArg _ (matW_congr (fun i j _ _ => by simp [subBox]))
    | succ t ih =>
      intro ht
      rw [forRange, ih (by omega), Res.bind_ok, aget_matW _ (show t < d from ht), Res.bind_ok,
        aget_matW _ (show t < d from ht), Res.bind_ok, words_drop _ hb, words_drop _ hb, nmodVecSub_words, Res.bind_ok, matW_def,
        aset_ofFn _ (show t < d from ht)]
      congr 1
      rw [matW_def]
      congr 1
      funext i
      by_cases hi : (i : Nat) = t
      · rw [if_pos hi]
        refine List.ext_getElem (by simp [words]; omega) (fun j h1 h2 => ?_)
        have hj : j < d := by simpa [words] using h2
        have hR : (words (fun j : Fin d => (subBox A B (t + 1) b).e i j))[j] = ((subBox A B (t + 1) b).e i j).val := by simp [words]
        rw [hR]
        by_cases hjb : j < b
        · rw [List.getElem_append_left (by simp [words]; omega), List.getElem_take]
          have : (words (fun j : Fin d => (subBox A B t b).e t j))[j]'(by simp [words]; omega) = ((subBox A B t b).e t j).val := by simp [words]
          refine this.trans ?_
          show ZMod.val (if t < t ∧ _ then _ else _) = ZMod.val (if _ ∧ b ≤ j ∧ _ then _ else _)
          rw [if_neg (by omega), if_neg (by omega), hi]
        · rw [List.getElem_append_right (by simp [words]; omega)]
          simp only [words, List.length_take, List.length_ofFn, List.getElem_ofFn, Pi.sub_apply]
          have e1 : b + (j - min b d) = j := by omega
          simp only [e1]
          show ZMod.val ((if t < t ∧ _ then _ else _) - _) = ZMod.val (if _ then _ else _)
          rw [if_neg (by omega), if_pos ⟨by omega, by omega, by rw [hA.1]; omega, by rw [hA.2]; omega⟩, hi]
      · rw [if_neg hi]
        congr 1
        funext j
        show (if _ then _ else _) = (if _ then _ else _)
        refine if_congr (and_congr_left' ?_) rfl rfl
        omega
  exact key a ha

theorem updateWords_eq [NeZero q] {d len : Nat} (hd : 0 < d) {box : Nat → Nat × Nat} (hbox : ∀ i, (box i).1 ≤ d ∧ (box i).2 ≤ d) {blen : Nat}
    (c : Nat) (hc : c + 1 ≤ len) (hcb : c + 1 ≤ blen) {F : Nat → CMat (ZMod q)} (hF : ∀ i, SqMat d (F i)) :
    updateWords q d (List.ofFn (fun i : Fin blen => box i)) c (tabW d len F) = .ok (tabW d len (fdUpdate box c F)) ∧
      ∀ i, SqMat d (fdUpdate box c F i) := by
  induction c generalizing F with
  | zero => exact ⟨rfl, hF⟩
  | succ c ih =>
    have h2 := ih (by omega) (by omega) (sq_update (i := c) hF
      (sq_subBox (a := (box (c + 1)).1) (b := (box (c + 1)).2) (B := F (c + 1)) (hF c)))
    refine ⟨?_, h2.2⟩
    rw [updateWords, aget_tabW F (by omega), Res.bind_ok, aget_tabW F (by omega), Res.bind_ok, aget_ofFn _ (show c + 1 < blen by omega), Res.bind_ok]
    simp only
    rw [subBoxWords_eq hd (hbox _).1 (hbox _).2 (hF _), Res.bind_ok, aset_tabW F (by omega), Res.bind_ok, h2.1]
    rfl

theorem loopWords_eq [NeZero q] {d c : Nat} (hd : 0 < d) (hc : 1 ≤ c) {box : Nat → Nat × Nat} (hbox : ∀ i, (box i).1 ≤ d ∧ (box i).2 ≤ d)
    {blen : Nat} (hcb : c ≤ blen) (a : Nat) {F : Nat → CMat (ZMod q)} (hF : ∀ i, SqMat d (F i)) {H : CVec (ZMod q)} (hH : H.len = d)
    {b : List Nat} (hb : b.length = d) :
    ∃ F' H', fdLoop box c a F H = .ok (F', H') ∧ (∀ i, SqMat d (F' i)) ∧ H'.len = d ∧
      loopWords q d (List.ofFn (fun i : Fin blen => box i)) c a (tabW d c F) (vecW d H, b) = .ok (tabW d c F', vecW d H') := by
  induction a generalizing F H b with
  | zero => exact ⟨F, H, rfl, hF, hH, rfl⟩
  | succ a ih =>
    obtain ⟨u1, u2⟩ := updateWords_eq hd hbox (len := c) (blen := blen) (c - 1) (by omega) (by omega) hF
    obtain ⟨H1, h1, h2, h3, -⟩ := matVec_words (u2 0) hH hb
    obtain ⟨F', H', g1, g2, g3, g4⟩ := ih u2 h2 (vecW_length d H)
    refine ⟨F', H', ?_, g2, g3, ?_⟩
    · rw [fdLoop]
      rw [h1, Res.bind_ok, g1]
    · rw [loopWords, u1, Res.bind_ok, aget_tabW _ (by omega), Res.bind_ok]
      simp only
      rw [h3, Res.bind_ok, g4]

theorem matW_inj [NeZero q] {d : Nat} {A B : CMat (ZMod q)} (hA : SqMat d A) (hB : SqMat d B) :
    decide (matW d A = matW d B) = A.eqv B := by
  rw [Bool.eq_iff_iff, decide_eq_true_iff, CMat.eqv, hA.1, hA.2, hB.1, hB.2]
  simp only [decide_true, Bool.true_and, List.all_eq_true, List.mem_range, decide_eq_true_iff]
  constructor
  · intro h i hi j hj
    have e1 : aget2 (matW d A) i j = aget2 (matW d B) i j := by rw [h]
    rw [aget2_matW A hi hj, aget2_matW B hi hj] at e1
    exact ZMod.val_injective q (by simpa using e1)
  · intro h
    exact matW_congr (fun i j hi hj => h i hi j hj)

theorem trimLen_le {d : Nat} {box : Nat → Nat × Nat} : ∀ {len c : Nat}, trimLen d box len = .ok c → 1 ≤ c ∧ c ≤ len
  | 0, _, h => by simp [trimLen] at h
  | len + 1, c, h => by
    rw [trimLen] at h
    split at h
    · have := trimLen_le h
      omega
    · cases h
      omega

theorem mapM_box [NeZero q] {d len : Nat} (M : Nat → CMat (ZMod q)) :
    (tabW d len M).mapM (boxWords d) = .ok (List.ofFn (fun i : Fin len => boxOf d (M i))) := by
  have h : tabW d len M = (List.range len).map (fun i => matW d (M i)) := by
    rw [tabW]
    refine List.ext_getElem (by simp) (fun i h1 h2 => by simp)
  rw [h]
  have e : ∀ L : List Nat, (L.map (fun i => matW d (M i))).mapM (boxWords d) = L.mapM (fun i => boxWords d (matW d (M i))) := by
    intro L
    rw [List.mapM_map]
    rfl
  rw [e]
  exact mapM_ofFn _ _ (fun i => boxWords_eq (M i))

theorem fdWords_eq [NeZero q] {d len k : Nat} (hd : 0 < d) {M : Nat → CMat (ZMod q)} (hM : SqMat d (M 0)) (hk : k ≤ q) (hlen : len ≤ k)
    {H : CVec (ZMod q)} (hH : H.len = d) {b : List Nat} (hb : b.length = d) :
    (∃ H', fdMain d len k M H = .ok H' ∧ H'.len = d ∧ fdWords q d len k (tabW d len M) (vecW d H) b = .ok (vecW d H')) ∨
    ∃ e, fdMain d len k M H = .error e ∧ fdWords q d len k (tabW d len M) (vecW d H) b = .error e := by
  rcases hc : trimLen d (fun i => boxOf d (M i)) len with e | c
  · right
    refine ⟨e, ?_, ?_⟩
    · rw [fdMain]
      simp only
      rw [hc]
      rfl
    · rw [fdWords, mapM_box, Res.bind_ok, trimWords_eq (fun i => boxOf d (M i)) len le_rfl, hc]
      rfl
  · obtain ⟨hc1, hc2⟩ := trimLen_le hc
    have hF : ∀ i, SqMat d (fdStart d c (k - c) M i) := fun i => ⟨rfl, rfl⟩
    obtain ⟨H1, b1, f1, f2, f3, f4⟩ := firstWords_eq hF (len := c) c le_rfl hH hb
    obtain ⟨t1, t2⟩ := tableWords_eq (c := c) hF
    obtain ⟨F', H', l1, l2, l3, l4⟩ := loopWords_eq hd hc1 (box := fun i => boxOf d (M i)) (fun i => boxOf_le (M i)) (blen := len) hc2 (k - c)
      t2 f2 f3
    have e1 : fdMain d len k M H = (check ((F' 0).eqv (M 0)) >>= fun _ => .ok H') := by
      rw [fdMain]
      simp only
      rw [hc, Res.bind_ok, f1, Res.bind_ok, l1, Res.bind_ok]
    have e2 : fdWords q d len k (tabW d len M) (vecW d H) b = (check ((F' 0).eqv (M 0)) >>= fun _ => .ok (vecW d H')) := by
      have e3 : (List.range c).mapM (startWords q d c k (tabW d len M)) = .ok (tabW d c (fdStart d c (k - c) M)) :=
        mapM_ofFn _ _ (fun i => startWords_eq M hc2 (by have := i.2; omega))
      rw [fdWords, mapM_box, Res.bind_ok, trimWords_eq (fun i => boxOf d (M i)) len le_rfl, hc, Res.bind_ok, e3, Res.bind_ok, f4,
        Res.bind_ok, t1, Res.bind_ok, l4, Res.bind_ok]
      simp only
      rw [aget_tabW _ (by omega), Res.bind_ok, aget_tabW _ (by omega), Res.bind_ok, matW_inj (l2 0) hM]
    rw [e1, e2]
    cases hch : (F' 0).eqv (M 0)
    · right
      exact ⟨.assertFail, rfl, rfl⟩
    · left
      exact ⟨H', rfl, l3, rfl⟩

/-! ### the conversions -/

/-- Entries in `[0, q)`. -/
def RedWord (q : Nat) (x : Int) : Prop := 0 ≤ x ∧ x < q

theorem getUi_ok {x : Int} (hq : q < 2 ^ 64) (hx : RedWord q x) : getUi x = .ok ((x : ZMod q)).val := by
  have h1 : 0 ≤ x := hx.1
  have h2 : x < q := hx.2
  rw [getUi, if_pos ⟨h1, by have : (q : Int) < 2 ^ 64 := by exact_mod_cast hq
                            omega⟩]
  congr 1
  obtain ⟨m, rfl⟩ := Int.eq_ofNat_of_zero_le h1
  have hm : m < q := by exact_mod_cast h2
  simp [ZMod.val_natCast, Nat.mod_eq_of_lt hm]

theorem vecWords_ok {d : Nat} (hq : q < 2 ^ 64) {G : CVec Int} (hG : d ≤ G.len) (hr : ∀ i, i < d → RedWord q (G.e i)) :
    vecWords d G = .ok (vecW d (CVec.mk' d (fun i => ((G.e i : Int) : ZMod q)))) ∧
    nmodVec q d G = .ok (CVec.mk' d (fun i => ((G.e i : Int) : ZMod q))) := by
  constructor
  · refine mapM_ofFn _ _ (fun i => ?_)
    rw [CVec.at, if_pos (by have := i.2; omega), Res.bind_ok, getUi_ok hq (hr i i.2)]
    congr 2
    show _ = (if (i : Nat) < d then _ else _)
    rw [if_pos i.2]
  · rw [nmodVec, if_pos]
    refine ⟨hG, ?_⟩
    rw [allReduced, List.all_eq_true]
    intro i hi
    exact decide_eq_true (hr i (List.mem_range.1 hi))

theorem matWords_ok {d : Nat} (hq : q < 2 ^ 64) {M : CMat Int} (hM : d ≤ M.rows ∧ d ≤ M.cols)
    (hr : ∀ i j, i < d → j < d → RedWord q (M.e i j)) :
    matWords d M = .ok (matW d (CMat.mk' d d (fun i j => ((M.e i j : Int) : ZMod q)))) ∧
    nmodMat q d M = .ok (CMat.mk' d d (fun i j => ((M.e i j : Int) : ZMod q))) := by
  constructor
  · refine mapM_ofFn _ _ (fun i => mapM_ofFn _ _ (fun j => ?_))
    rw [CMat.at, if_pos ⟨by have := i.2; omega, by have := j.2; omega⟩, Res.bind_ok, getUi_ok hq (hr i j i.2 j.2)]
    congr 2
    show _ = (if (i : Nat) < d ∧ (j : Nat) < d then _ else _)
    rw [if_pos ⟨i.2, j.2⟩]
  · rw [nmodMat, if_pos]
    refine ⟨hM.1, hM.2, ?_⟩
    rw [List.all_eq_true]
    intro i hi
    rw [allReduced, List.all_eq_true]
    intro j hj
    exact decide_eq_true (hr i j (List.mem_range.1 hi) (List.mem_range.1 hj))

theorem polyWords_ok {d len : Nat} (hq : q < 2 ^ 64) {Ms : Nat → CMat Int} (hM : ∀ i, i < len → d ≤ (Ms i).rows ∧ d ≤ (Ms i).cols)
    (hr : ∀ t, t < len → ∀ i j, i < d → j < d → RedWord q ((Ms t).e i j)) :
    ∃ F : Nat → CMat (ZMod q), (∀ i, SqMat d (F i)) ∧ polyWords d len Ms = .ok (tabW d len F) ∧ nmodMats q d Ms len = .ok F := by
  have h2 : ∀ m, m ≤ len → nmodMats q d Ms m = .ok (fun t => if t < m then CMat.mk' d d (fun i j => (((Ms t).e i j : Int) : ZMod q))
      else CMat.mk' d d (fun _ _ => 0)) := by
    intro m
    induction m with
    | zero =>
      intro _
      rw [nmodMats]
      congr 1
    | succ m ih =>
      intro hm
      rw [nmodMats, ih (by omega), Res.bind_ok, (matWords_ok hq (hM m (by omega)) (hr m (by omega))).2, Res.bind_ok]
      congr 1
      funext t
      dsimp only
      by_cases h : t = m
      · subst h
        rw [if_pos rfl, if_pos (by omega)]
      · rw [if_neg h]
        by_cases h' : t < m
        · rw [if_pos h', if_pos (by omega)]
        · rw [if_neg h', if_neg (by omega)]
  refine ⟨_, fun i => ?_, ?_, h2 len le_rfl⟩
  · by_cases h : i < len
    · simp only [if_pos h]
      exact ⟨rfl, rfl⟩
    · simp only [if_neg h]
      exact ⟨rfl, rfl⟩
  · refine mapM_ofFn _ _ (fun i => ?_)
    rw [(matWords_ok hq (hM i i.2) (hr i i.2)).1]
    dsimp only
    rw [if_pos i.2]

theorem wordsToVec_words {d : Nat} {H : CVec (ZMod q)} (hH : H.len = d) : wordsToVec (vecW d H) = fromNmod H := by
  rw [wordsToVec, fromNmod, vecW_length, hH]
  unfold CVec.mk'
  congr 1
  funext i
  by_cases hi : i < d
  · rw [if_pos hi, if_pos hi]
    simp [vecW, words, hi]
  · rw [if_neg hi, if_neg hi]

end Verif
