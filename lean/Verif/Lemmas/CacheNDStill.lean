import Verif.Lemmas.CacheNDFrozen
import Verif.Lemmas.FrobMatrixND

/-! The reads of `frob_ND_flint` all find their entries. -/

namespace Verif

open Spec

/-! ### The terms stay in the positive orthant -/

theorem bumpShift_inv : ∀ (u sh v : IVec) {v' : IVec}, (∀ s ∈ sh, 0 ≤ s) →
    List.Forall₂ (fun x y : Int => 0 < x - y ∧ 0 ≤ y) u v → bumpShift u sh v = some v' →
    List.Forall₂ (fun x y : Int => 0 < x - y ∧ 0 ≤ y) u v'
  | [], _, _, _, _, _, h => by simp [bumpShift] at h
  | _ :: _, [], _, _, _, _, h => by simp [bumpShift] at h
  | _ :: _, _ :: _, [], _, _, _, h => by simp [bumpShift] at h
  | x :: u, s :: sh, y :: v, v', hs, hf, h => by
    rw [bumpShift] at h
    obtain ⟨h1, h2⟩ := List.forall₂_cons.1 hf
    split at h
    · next hlt =>
      cases h
      have := hs s (by simp)
      exact List.forall₂_cons.2 ⟨⟨by omega, by omega⟩, h2⟩
    · rw [Option.map_eq_some_iff] at h
      obtain ⟨w, hw, rfl⟩ := h
      exact List.forall₂_cons.2 ⟨h1, bumpShift_inv u sh v (fun s hs' => hs s (by simp [hs'])) h2 hw⟩

theorem dirLoopShift_inv {u sh : IVec} (hs : ∀ s ∈ sh, 0 ≤ s) : ∀ (k : Nat) {v v' : IVec},
    List.Forall₂ (fun x y : Int => 0 < x - y ∧ 0 ≤ y) u v → dirLoopShift u sh k v = .ok v' →
    List.Forall₂ (fun x y : Int => 0 < x - y ∧ 0 ≤ y) u v'
  | 0, v, v', hf, h => by cases h; exact hf
  | k + 1, v, v', hf, h => by
    rw [dirLoopShift] at h
    cases hb : bumpShift u sh v with
    | none => rw [hb] at h; cases h
    | some w =>
      rw [hb] at h
      exact dirLoopShift_inv hs k (bumpShift_inv u sh v hs hf hb) h

theorem directionShift_inv {d : Nat} {u sh v : IVec} (hs : ∀ s ∈ sh, 0 ≤ s) (hu : ∀ x ∈ u, 0 < x)
    (h : directionShift d u sh = .ok v) : List.Forall₂ (fun x y : Int => 0 < x - y ∧ 0 ≤ y) u v := by
  refine dirLoopShift_inv hs d ?_ h
  clear h
  induction u with
  | nil => exact List.Forall₂.nil
  | cons x u ih =>
    have := hu x (by simp)
    exact List.forall₂_cons.2 ⟨⟨by simpa using this, le_refl _⟩, ih (fun y hy => hu y (by simp [hy]))⟩

theorem forall₂_right {u v : IVec} (h : List.Forall₂ (fun x y : Int => 0 < x - y ∧ 0 ≤ y) u v) : ∀ y ∈ v, 0 ≤ y := by
  induction h with
  | nil => intro y hy; simp at hy
  | cons h1 _ ih =>
    intro y hy
    rcases List.mem_cons.1 hy with rfl | hy
    · exact h1.2
    · exact ih y hy

theorem forall₂_sub {u v y : IVec} (h : List.Forall₂ (fun x y : Int => 0 < x - y ∧ 0 ≤ y) u v) (hy : subVec u v = .ok y) :
    ∀ x ∈ y, 0 < x := by
  rw [subVec_ok h.length_eq] at hy
  obtain rfl := Except.ok.inj hy
  clear hy
  induction h with
  | nil => intro y hy; simp at hy
  | cons h1 _ ih =>
    intro y hy
    rw [List.zipWith_cons_cons] at hy
    rcases List.mem_cons.1 hy with rfl | hy
    · exact h1.1
    · exact ih y hy

theorem addVec_ge {a b c : IVec} {k l : Int} (ha : ∀ x ∈ a, k ≤ x) (hb : ∀ x ∈ b, l ≤ x) (h : addVec a b = .ok c) :
    ∀ x ∈ c, k + l ≤ x := by
  rw [addVec, Res.bind_eq_ok] at h
  obtain ⟨_, -, h⟩ := h
  obtain rfl := Except.ok.inj h
  intro x hx
  obtain ⟨i, hi, rfl⟩ := List.getElem_of_mem hx
  rw [List.getElem_zipWith]
  have h1 := ha _ (List.getElem_mem (by rw [List.length_zipWith] at hi; omega : i < a.length))
  have h2 := hb _ (List.getElem_mem (by rw [List.length_zipWith] at hi; omega : i < b.length))
  omega

/-- All keys have positive entries. -/
def PosKeys {V : Type} (H : MonMap V) : Prop := ∀ t ∈ H, ∀ x ∈ t.1, (0 : Int) < x

theorem PosKeys.set {V : Type} {H : MonMap V} (h : PosKeys H) {k : IVec} (hk : ∀ x ∈ k, 0 < x) (v : V) :
    PosKeys (MonMap.set H k v) := by
  intro t ht
  rcases mem_set_any ht with rfl | ht
  · exact hk
  · exact h t ht

section

variable {q : Nat} {solve : Solver (ZMod q)} {N : ND (ZMod q)}

theorem posKeys_addTerms {var : NDVar (ZMod q)} {ei : IVec} (hei : ∀ x ∈ ei, 0 ≤ x) {Dj : Int} {fact : ZMod q}
    {P : MonMap (ZMod q)} (hP : ∀ t ∈ P, ∀ x ∈ t.1, 0 ≤ x) {H H' : MonMap (CVec (ZMod q))} (hH : PosKeys H)
    (h : addTermsND var N ei Dj fact P H = .ok H') : PosKeys H' := by
  rw [addTermsND] at h
  refine foldlM_keeps PosKeys P hH (fun s t s' ht hs e => ?_) h
  rw [Res.bind_eq_ok] at e
  obtain ⟨a, e1, e⟩ := e
  rw [Res.bind_eq_ok] at e
  obtain ⟨mon, e2, e⟩ := e
  split at e
  · cases e; exact hs
  · rw [hAdd] at e
    split at e
    · obtain rfl := Except.ok.inj e
      refine hs.set (fun x hx => ?_) _
      have h1 := addVec_ge (hP t ht) hei e1
      have h2 := addVec_ge (l := 1) h1 (fun x hx => by rw [List.eq_of_mem_replicate hx]) e2 x hx
      omega
    · cases e

theorem posKeys_acc {H H' : MonMap (CVec (ZMod q))} (hH : PosKeys H) {y : IVec} (hy : ∀ x ∈ y, 0 < x)
    {G : CVec (ZMod q)} (h : accTerm H y G = .ok H') : PosKeys H' := by
  rw [accTerm] at h
  split at h
  · obtain rfl := Except.ok.inj h
    exact hH.set hy _
  · rw [Res.bind_eq_ok] at h
    obtain ⟨s, -, h⟩ := h
    obtain rfl := Except.ok.inj h
    exact hH.set hy _

/-- A table of polynomials with nonnegative exponents. -/
def NonNegTable (T : List (MonMap (ZMod q))) : Prop := ∀ P ∈ T, ∀ t ∈ P, ∀ x ∈ t.1, (0 : Int) ≤ x

theorem shift_nonneg {c : Prop} [Decidable c] {ei : IVec} (hei : ∀ x ∈ ei, 0 ≤ x) (n : Nat) :
    ∀ s ∈ (if c then ei else List.replicate n (0 : Int)), 0 ≤ s := by
  split
  · exact hei
  · intro s hs; rw [List.eq_of_mem_replicate hs]

theorem posKeys_term {p e m : Nat} {ei : IVec} (hei : ∀ x ∈ ei, 0 ≤ x) {s s' : MonMap (CVec (ZMod q)) × CVec (ZMod q)}
    {t : IVec × CVec (ZMod q)} (ht : ∀ x ∈ t.1, 0 < x) (hs : PosKeys s.1)
    (h : frobTermND (varNDFlint solve N p) solve N p e m ei s t = .ok s') : PosKeys s'.1 := by
  rw [frobTermND, Res.bind_eq_ok] at h
  obtain ⟨v, hv, h⟩ := h
  rw [Res.bind_eq_ok] at h
  obtain ⟨r, -, h⟩ := h
  split at h
  · cases h; exact hs
  · split at h
    · next he =>
      rw [if_pos he] at hv
      have hf := directionShift_inv (shift_nonneg (c := m < e) hei (N.n + 1)) ht hv
      rw [Res.bind_eq_ok] at h
      obtain ⟨y, hy, h⟩ := h
      rw [Res.bind_eq_ok] at h
      obtain ⟨_, -, h⟩ := h
      rw [Res.bind_eq_ok] at h
      obtain ⟨H, hH, h⟩ := h
      obtain rfl := Except.ok.inj h
      exact posKeys_acc hs (forall₂_sub hf hy) hH
    · rw [Res.bind_eq_ok] at h
      obtain ⟨_, -, h⟩ := h
      rw [Res.bind_eq_ok] at h
      obtain ⟨_, -, h⟩ := h
      rw [Res.bind_eq_ok] at h
      obtain ⟨_, -, h⟩ := h
      rw [Res.bind_eq_ok] at h
      obtain ⟨_, -, h⟩ := h
      obtain rfl := Except.ok.inj h
      exact hs

theorem posKeys_new {var : NDVar (ZMod q)} {T : List (MonMap (ZMod q))} (hT : NonNegTable T) {ei : IVec}
    (hei : ∀ x ∈ ei, 0 ≤ x) {m prec e : Nat} {st : FrobState (ZMod q)} (hst : PosKeys st.H)
    {H : MonMap (CVec (ZMod q))} (h : frobNewND var N T ei m prec e st = .ok H) : PosKeys H := by
  rw [frobNewND] at h
  split at h
  · rw [Res.bind_eq_ok] at h
    obtain ⟨Dj, -, h⟩ := h
    rw [Res.bind_eq_ok] at h
    obtain ⟨P, hP, h⟩ := h
    refine posKeys_addTerms hei (hT P ?_) hst h
    rw [aget] at hP
    cases hx : T[e - m]? with
    | none => rw [hx] at hP; cases hP
    | some P' =>
      rw [hx] at hP
      obtain rfl := Except.ok.inj hP
      exact List.mem_of_getElem? hx
  · cases h; exact hst

theorem posKeys_pass {p : Nat} {T : List (MonMap (ZMod q))} (hT : NonNegTable T) {ei : IVec}
    (hei : ∀ x ∈ ei, 0 ≤ x) {m prec e : Nat} {st st' : FrobState (ZMod q)} (hst : PosKeys st.H)
    (h : frobPassND (varNDFlint solve N p) solve N p T ei m prec e st = .ok st') : PosKeys st'.H := by
  rw [frobPassND, Res.bind_eq_ok] at h
  obtain ⟨H, hH, h⟩ := h
  rw [Res.bind_eq_ok] at h
  obtain ⟨s, hs, h⟩ := h
  obtain rfl := Except.ok.inj h
  have hp := posKeys_new hT hei hst hH
  exact foldlM_keeps (fun s => PosKeys s.1) H (fun t ht => by simp at ht)
    (fun s t s' ht hs e => posKeys_term hei (hp t ht) hs e) hs

/-! ### Frozen runs -/

/-- If the function without dictionaries returns, the method returns the same and leaves the state as it is. -/
def Frz (st : NDCache q) {α : Type} (x : NM q α) (y : Res α) : Prop := ∀ a, y = .ok a → x st = .ok (a, st)

theorem Frz.pure {st : NDCache q} {α : Type} (a : α) : Frz st (pure a) (.ok a) := by
  rintro b ⟨⟩; rfl

theorem Frz.pureRes {st : NDCache q} {α : Type} (y : Res α) : Frz st (NM.pureRes y) y := by
  rintro b rfl; rfl

theorem Frz.bind {st : NDCache q} {α β : Type} {x : NM q α} {y : Res α} {g : α → NM q β} {k : α → Res β}
    (h : Frz st x y) (hg : ∀ a, y = .ok a → Frz st (g a) (k a)) : Frz st (x >>= g) (y >>= k) := by
  intro b hb
  obtain ⟨a, ha, hb⟩ := Res.bind_eq_ok.1 hb
  rw [NM.bind_ok (h a ha)]
  exact hg a ha b hb

theorem frz_ite {st : NDCache q} {α : Type} {c : Prop} [Decidable c] {x x' : NM q α} {y y' : Res α}
    (h : c → Frz st x y) (h' : ¬ c → Frz st x' y') : Frz st (if c then x else x') (if c then y else y') := by
  by_cases hc : c
  · rw [if_pos hc, if_pos hc]; exact h hc
  · rw [if_neg hc, if_neg hc]; exact h' hc

theorem frz_foldlM {st : NDCache q} {α σ : Type} {x : σ → α → NM q σ} {y : σ → α → Res σ} (L : List α)
    (h : ∀ s a, a ∈ L → Frz st (x s a) (y s a)) : ∀ s, Frz st (L.foldlM x s) (L.foldlM y s) := by
  induction L with
  | nil => intro s; exact Frz.pure _
  | cons a L ih =>
    intro s
    exact Frz.bind (h s a (by simp)) (fun s' _ => ih (fun s b hb => h s b (by simp [hb])) s')

theorem frz_downTo {st : NDCache q} {σ : Type} {x : Nat → σ → NM q σ} {y : Nat → σ → Res σ} (P : σ → Prop)
    (h : ∀ i s, P s → Frz st (x i s) (y i s)) (hP : ∀ i s s', P s → y i s = .ok s' → P s') (n : Nat) :
    ∀ s, P s → Frz st (cDownTo x n s) (downTo 0 y n s) := by
  induction n with
  | zero => intro s _; exact Frz.pure _
  | succ n ih =>
    intro s hs
    rw [cDownTo, downTo, Nat.zero_add]
    exact (h _ s hs).bind (fun s' e => ih s' (hP _ _ _ hs e))

theorem checkND_sum {u v : IVec} {x : Unit} (h : checkND N u v = .ok x) : sumVec v = N.d := by
  rw [checkND, Res.bind_eq_ok] at h
  obtain ⟨_, h, -⟩ := h
  exact of_decide_eq_true (check_eq_ok.1 h)

variable {st : NDCache q} {solve' : Solver (ZMod q)}

theorem frz_getNDPolyZ (hst : NDFull solve N st) (sm : Bool) (u v : IVec) (hv : ∀ x ∈ v, 0 ≤ x) :
    Frz st (cGetNDPolyZ solve' N sm u v) (getNDPolyZ solve N u v) := by
  rw [getNDPolyZ, redMatNDPolyZ_shape]
  simp only [bind_assoc]
  refine Frz.bind (Frz.pureRes _) (fun _ h1 => Frz.bind (Frz.pureRes _) (fun _ h2 => Frz.bind (Frz.pureRes _) (fun _ h3 =>
    Frz.bind ?_ (fun x _ => Frz.bind ?_ (fun _ _ => Frz.pureRes _)))))
  · have ht : IsTuple (N.n + 1) N.d v :=
      ⟨of_decide_eq_true (check_eq_ok.1 h1), hv, (sumVec_eq_sum v).symm.trans (checkND_sum h3)⟩
    have hs := (hst.has v ht).1
    intro a ha
    cases hf : st.polyZD.find? v with
    | none => rw [hf] at hs; cases hs
    | some E =>
      rw [cPolyNDZ, hf]
      rw [hst.ok.polyZD v E hf] at ha
      obtain rfl := Except.ok.inj ha
      rfl
  · cases x with
    | some a => exact Frz.pure a
    | none => exact Frz.pureRes _

theorem getNDPolyZ_length {u v : IVec} {P : Nat → CMat Int} (h : getNDPolyZ solve N u v = .ok P) :
    v.length = N.n + 1 := by
  rw [getNDPolyZ, Res.bind_eq_ok] at h
  obtain ⟨_, h, -⟩ := h
  exact of_decide_eq_true (check_eq_ok.1 h)

theorem lookOrCompute_hit {α : Type} (dict : NDCache q → MonMap α) (comp : NM q Unit) (u : IVec) {M : α}
    (hf : (dict st).find? u = some M) : lookOrCompute dict comp u st = .ok (M, st) := by
  have e : lookOrCompute dict comp u st = (match (dict st).find? u with
      | some M => pure M
      | none => do
          comp
          let st ← get
          derefN ((dict st).find? u) : NM q α) st := rfl
  rw [e, hf]
  rfl

theorem frz_cok (hst : NDFull solve N st) (hc : CokEq solve N) {u : IVec} (hu : u.length = N.n + 1) :
    Frz st (cCokND solve' N u) (cokernelsToBasis solve N u) := by
  rw [← hc u, cCokND, getCokND]
  refine Frz.bind (Frz.pureRes _) (fun _ h1 => Frz.bind (Frz.pureRes _) (fun _ h2 => ?_))
  have hp := check_eq_ok.1 h1
  have ht : IsTuple (N.n + 1) N.d u := by
    refine ⟨hu, fun x hx => ?_, (sumVec_eq_sum u).symm.trans (of_decide_eq_true (check_eq_ok.1 h2))⟩
    have := of_decide_eq_true (List.all_eq_true.1 hp x hx)
    omega
  have hs := (hst.has u ht).2 hp
  intro a ha
  cases hf : st.cokD.find? u with
  | none => rw [hf] at hs; cases hs
  | some M =>
    rw [hst.ok.cokD u M hf] at ha
    obtain rfl := Except.ok.inj ha
    exact lookOrCompute_hit NDCache.cokD _ u hf

theorem frz_termFlint (hst : NDFull solve N st) (sm : Bool) (p last : Nat) (u v : IVec) (hv : ∀ x ∈ v, 0 ≤ x) (G) :
    Frz st (cTermNDFlint solve' N sm p last u v G) ((varNDFlint solve N p).term last u v G) := by
  rw [cTermNDFlint, varNDFlint]
  exact Frz.bind (Frz.bind (Frz.pureRes _) (fun dest _ => Frz.bind (Frz.bind (frz_getNDPolyZ hst sm dest v hv)
    (fun _ _ => Frz.pureRes _)) (fun _ _ => Frz.pure _))) (fun _ _ => Frz.pure _)

theorem termFlint_length {p last : Nat} {u v : IVec} {G : CVec (ZMod q)} {r : IVec × CVec (ZMod q)}
    (h : (varNDFlint solve N p).term last u v G = .ok r) : v.length = N.n + 1 := by
  rw [varNDFlint] at h
  obtain ⟨_, h, -⟩ := Res.bind_eq_ok.1 h
  rw [ndBatched, Res.bind_eq_ok] at h
  obtain ⟨_, -, h⟩ := h
  rw [Res.bind_eq_ok] at h
  obtain ⟨_, h, -⟩ := h
  rw [batchFlint, Res.bind_eq_ok] at h
  obtain ⟨_, h, -⟩ := h
  exact getNDPolyZ_length h

theorem frz_frobTermND (hst : NDFull solve N st) (hc : CokEq solve N) (sm : Bool) (p e m : Nat) {ei : IVec}
    (hei : ∀ x ∈ ei, 0 ≤ x) (s) {t : IVec × CVec (ZMod q)} (ht : ∀ x ∈ t.1, 0 < x) :
    Frz st (cFrobTermND solve' N (varNDFlint solve N p) (cTermNDFlint solve' N sm p) p e m ei s t)
      (frobTermND (varNDFlint solve N p) solve N p e m ei s t) := by
  rw [cFrobTermND, frobTermND]
  refine Frz.bind (Frz.pureRes _) (fun v hv => ?_)
  have hv0 : ∀ x ∈ v, 0 ≤ x := by
    split at hv
    · exact forall₂_right (directionShift_inv (shift_nonneg (c := m < e) hei (N.n + 1)) ht hv)
    · obtain rfl := Except.ok.inj hv
      exact fun x hx => (ht x hx).le
  refine Frz.bind (frz_termFlint hst sm p _ _ _ hv0 _) (fun r hr => frz_ite (fun _ => Frz.pure _) (fun _ =>
    frz_ite (fun _ => Frz.pureRes _) (fun he => ?_)))
  rw [if_neg he] at hv
  obtain rfl := Except.ok.inj hv
  exact Frz.bind (Frz.pureRes _) (fun _ _ => Frz.bind (frz_cok hst hc (termFlint_length hr)) (fun _ _ => Frz.pureRes _))

theorem frz_frobPassND (hst : NDFull solve N st) (hc : CokEq solve N) (sm : Bool) (p : Nat)
    {T : List (MonMap (ZMod q))} (hT : NonNegTable T) {ei : IVec} (hei : ∀ x ∈ ei, 0 ≤ x) (m prec e : Nat)
    (fs : FrobState (ZMod q)) (hfs : PosKeys fs.H) :
    Frz st (cFrobPassND solve' N (varNDFlint solve N p) (cTermNDFlint solve' N sm p) p T ei m prec e fs)
      (frobPassND (varNDFlint solve N p) solve N p T ei m prec e fs) :=
  Frz.bind (Frz.pureRes _) (fun H hH => Frz.bind (frz_foldlM H (fun s t ht =>
    frz_frobTermND hst hc sm p e m hei s (posKeys_new hT hei hfs hH t ht)) _) (fun _ _ => Frz.pure _))

/-- What the frozen run needs of the table of powers. -/
def GoodTable (N : ND (ZMod q)) (T : List (MonMap (ZMod q))) : Prop :=
  ∀ k T', computeFpow N.f T k = .ok T' → NonNegTable T'

theorem frz_frobFlint (hst : NDFull solve N st) (hc : CokEq solve N) (hb : ∀ b ∈ N.basis, ∀ x ∈ b, (0 : Int) ≤ x)
    (sm : Bool) (p : Nat) {T : List (MonMap (ZMod q))} (hT : GoodTable N T) (coord prec : Nat) :
    Frz st (cFrobNDFlint solve' N sm p T coord prec) (frobNDFlint solve N p T coord prec) := by
  rw [cFrobNDFlint, frobNDFlint, cFrobFunND, frobFunND]
  refine Frz.bind (Frz.pureRes _) (fun _ _ => Frz.bind (Frz.pureRes _) (fun ei hei => Frz.bind (Frz.pureRes _) (fun T' hT' =>
    frz_ite (fun _ => Frz.pureRes _) (fun _ => ?_))))
  have hei0 : ∀ x ∈ ei, 0 ≤ x := by
    refine hb ei ?_
    rw [aget] at hei
    cases hx : N.basis[coord]? with
    | none => rw [hx] at hei; cases hei
    | some b =>
      rw [hx] at hei
      obtain rfl := Except.ok.inj hei
      exact List.mem_of_getElem? hx
  simp only [frobCoreND, bind_assoc, pure_bind]
  exact Frz.bind (frz_downTo (fun s => PosKeys s.H) (fun e s hs => frz_frobPassND hst hc sm p (hT _ _ hT') hei0 _ _ _ _ hs)
    (fun e s s' hs h => posKeys_pass (hT _ _ hT') hei0 hs h) _ _ (fun t ht => by simp at ht)) (fun _ _ => Frz.pureRes _)

end

end Verif
