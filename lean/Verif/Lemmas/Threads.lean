import Verif.Spec.Threads
import Verif.Model.Threads
import Verif.Lemmas.NDCol

/-!
The critical sections of the loop over the columns of `compute_reduction_matrix_ND` commute.
-/

namespace Verif

open Spec

/-! ### Interleavings -/

theorem flatten_set_perm {α : Type} {a : α} {t : List α} : ∀ (ts : List (List α)) (i : Nat), ts[i]? = some (a :: t) →
    List.Perm ts.flatten (a :: (ts.set i t).flatten)
  | [], i, h => by simp at h
  | b :: ts, 0, h => by
      simp only [List.getElem?_cons_zero, Option.some.injEq] at h
      subst h
      simp
  | b :: ts, i + 1, h => by
      simp only [List.getElem?_cons_succ] at h
      have := flatten_set_perm ts i h
      simp only [List.set_cons_succ, List.flatten_cons]
      exact (List.Perm.append_left b this).trans List.perm_middle

theorem Spec.Interleave.perm {α : Type} {ts : List (List α)} {l : List α} (h : Interleave ts l) :
    List.Perm l ts.flatten := by
  induction h with
  | done h => rw [List.flatten_eq_nil_iff.2 h]
  | step h _ ih => exact (List.Perm.cons _ ih).trans (flatten_set_perm _ _ h).symm

/-- There is always one: the iterations one after the other. -/
theorem interleave_flatten {α : Type} : ∀ (ts : List (List α)), Interleave ts ts.flatten := by
  have key : ∀ (k : Nat) (ts : List (List α)), ts.flatten.length = k → Interleave ts ts.flatten := by
    intro k
    induction k with
    | zero =>
      intro ts h
      rw [List.length_eq_zero_iff.1 h]
      exact .done (List.flatten_eq_nil_iff.1 (List.length_eq_zero_iff.1 h))
    | succ k ih =>
      intro ts h
      have : ∀ (ts : List (List α)), ts.flatten ≠ [] → ∃ i a t, ts[i]? = some (a :: t) ∧
          ts.flatten = a :: (ts.set i t).flatten := by
        intro ts
        induction ts with
        | nil => intro h; simp at h
        | cons b ts ih =>
          intro h
          cases b with
          | nil =>
            obtain ⟨i, a, t, h1, h2⟩ := ih (by simpa using h)
            exact ⟨i + 1, a, t, by simpa using h1, by simpa using h2⟩
          | cons a b => exact ⟨0, a, b, rfl, by simp⟩
      obtain ⟨i, a, t, h1, h2⟩ := this ts (by intro h0; simp [h0] at h)
      rw [h2]
      refine .step h1 (ih _ ?_)
      rw [h2] at h
      simpa using h
  exact fun ts => key _ ts rfl

/-! ### Additions to the result -/

section

variable {R : Type} [CommRing R]

/-- All matrices are `dim x dim`, and the map is in order. -/
abbrev UOK (n dim : Nat) (res : MonMap (CMat R)) : Prop := MapOK n (fun _ M => M.rows = dim ∧ M.cols = dim) res

/-- The addition is inside the matrix. -/
structure UpdIn (n dim : Nat) (u : Upd R) : Prop where
  klen : u.key.length = n + 1
  hr : u.row < dim
  hc : u.col < dim

/-- The matrix with the entry raised. -/
def bumpM (u : Upd R) (M : CMat R) : CMat R :=
  ⟨M.rows, M.cols, fun a b => if a = u.row ∧ b = u.col then M.e a b + u.x else M.e a b⟩

/-- The matrix stored, or the zero matrix. -/
def matOf (dim : Nat) (res : MonMap (CMat R)) (k : IVec) : CMat R :=
  (MonMap.find? res k).getD (CMat.mk' dim dim (fun _ _ => 0))

theorem bumpM_comm (u w : Upd R) (M : CMat R) : bumpM u (bumpM w M) = bumpM w (bumpM u M) := by
  simp only [bumpM, CMat.mk.injEq, true_and]
  funext a b
  split_ifs <;> ring

theorem matOf_dim {n dim : Nat} {res : MonMap (CMat R)} (h : UOK n dim res) (k : IVec) :
    (matOf dim res k).rows = dim ∧ (matOf dim res k).cols = dim := by
  unfold matOf
  cases hf : MonMap.find? res k with
  | none => exact ⟨rfl, rfl⟩
  | some M => exact h.entry _ (mem_of_find? hf)

/-- `matAdd` when it does not fail. -/
def addF (dim : Nat) (res : MonMap (CMat R)) (u : Upd R) : MonMap (CMat R) :=
  res.set u.key (bumpM u (matOf dim res u.key))

theorem matAdd_eq {n dim : Nat} {res : MonMap (CMat R)} (h : UOK n dim res) {u : Upd R} (hu : UpdIn n dim u) :
    matAdd dim res u.key u.row u.col u.x = .ok (addF dim res u) ∧ UOK n dim (addF dim res u) := by
  obtain ⟨d1, d2⟩ := matOf_dim h u.key
  refine ⟨?_, MapOK.set h hu.klen ⟨d1, d2⟩⟩
  rw [matAdd]
  have e : (MonMap.find? res u.key).getD (CMat.mk' dim dim (fun _ _ => 0)) = matOf dim res u.key := rfl
  simp only [e]
  rw [if_pos ⟨by rw [d1]; exact hu.hr, by rw [d2]; exact hu.hc⟩]
  rfl

theorem matOf_addF (dim : Nat) (res : MonMap (CMat R)) (u : Upd R) (k : IVec) :
    matOf dim (addF dim res u) k = if k = u.key then bumpM u (matOf dim res k) else matOf dim res k := by
  unfold matOf addF
  rw [MonMap.find?_set]
  by_cases h : k = u.key
  · subst h; simp [matOf]
  · simp [h]

theorem addF_comm {n dim : Nat} {res : MonMap (CMat R)} (h : UOK n dim res) {u w : Upd R} (hu : UpdIn n dim u)
    (hw : UpdIn n dim w) : addF dim (addF dim res u) w = addF dim (addF dim res w) u := by
  have h1 := (matAdd_eq (matAdd_eq h hu).2 hw).2
  have h2 := (matAdd_eq (matAdd_eq h hw).2 hu).2
  refine MonMap.ext_of_sorted h1.sorted h2.sorted (fun k => ?_)
  have e : ∀ (res : MonMap (CMat R)) (u : Upd R), MonMap.find? (addF dim res u) k =
      if k = u.key then some (bumpM u (matOf dim res u.key)) else MonMap.find? res k := by
    intro res u
    rw [addF, MonMap.find?_set]
  rw [e, e, e, e, matOf_addF, matOf_addF]
  by_cases a : k = u.key
  · subst a
    by_cases b : u.key = w.key
    · rw [← b, if_pos rfl, if_pos rfl, if_pos rfl, if_pos rfl, bumpM_comm]
    · simp [b]
  · by_cases b : k = w.key
    · subst b
      simp [a]
    · simp [a, b]

theorem foldlM_matAdd {n dim : Nat} : ∀ (us : List (Upd R)) {res : MonMap (CMat R)}, UOK n dim res →
    (∀ u ∈ us, UpdIn n dim u) →
    us.foldlM (fun res u => matAdd dim res u.key u.row u.col u.x) res = .ok (us.foldl (addF dim) res) ∧
      UOK n dim (us.foldl (addF dim) res)
  | [], res, h, _ => ⟨rfl, h⟩
  | u :: us, res, h, hu => by
      obtain ⟨e, h1⟩ := matAdd_eq h (hu u (by simp))
      obtain ⟨e2, h2⟩ := foldlM_matAdd us h1 (fun w hw => hu w (by simp [hw]))
      refine ⟨?_, h2⟩
      rw [List.foldlM_cons, e, Res.bind_ok, e2, List.foldl_cons]

/-- The order of the additions does not matter. -/
theorem foldl_addF_perm {n dim : Nat} {us ws : List (Upd R)} (hp : List.Perm us ws) :
    ∀ {res : MonMap (CMat R)}, UOK n dim res → (∀ u ∈ us, UpdIn n dim u) →
    us.foldl (addF dim) res = ws.foldl (addF dim) res := by
  induction hp with
  | nil => intro res _ _; rfl
  | cons u _ ih =>
    intro res h hu
    exact ih (matAdd_eq h (hu u (by simp))).2 (fun w hw => hu w (by simp [hw]))
  | swap u w l =>
    intro res h hu
    simp only [List.foldl_cons]
    rw [addF_comm h (hu w (by simp)) (hu u (by simp))]
  | trans p1 p2 ih1 ih2 =>
    intro res h hu
    rw [ih1 h hu, ih2 h (fun u hm => hu u (p1.mem_iff.2 hm))]

theorem foldlM_critical (dim : Nat) : ∀ (secs : List (List (Upd R))) (res : MonMap (CMat R)),
    secs.foldlM (fun res us => critical dim us res) res =
      secs.flatten.foldlM (fun res u => matAdd dim res u.key u.row u.col u.x) res
  | [], res => rfl
  | us :: secs, res => by
      rw [List.foldlM_cons, List.flatten_cons, List.foldlM_append, critical]
      congr 1
      funext r
      exact foldlM_critical dim secs r

/-- Keys are never removed, and an addition that does not fail is inside its matrix. -/
theorem foldlM_matAdd_in {n dim : Nat} : ∀ (us : List (Upd R)) {res res' : MonMap (CMat R)},
    (∀ t ∈ res, t.2.rows = dim ∧ t.2.cols = dim) →
    us.foldlM (fun res u => matAdd dim res u.key u.row u.col u.x) res = .ok res' → MonMap.KeyLen (n + 1) res' →
    MonMap.KeyLen (n + 1) res ∧ ∀ u ∈ us, UpdIn n dim u
  | [], res, res', hd, h, hk => by
      cases h
      exact ⟨hk, by simp⟩
  | u :: us, res, res', hd, h, hk => by
      rw [List.foldlM_cons, Res.bind_eq_ok] at h
      obtain ⟨r1, h1, h2⟩ := h
      have hdim : (matOf dim res u.key).rows = dim ∧ (matOf dim res u.key).cols = dim := by
        unfold matOf
        cases hf : MonMap.find? res u.key with
        | none => exact ⟨rfl, rfl⟩
        | some M => exact hd _ (mem_of_find? hf)
      rw [matAdd] at h1
      have e : (MonMap.find? res u.key).getD (CMat.mk' dim dim (fun _ _ => 0)) = matOf dim res u.key := rfl
      simp only [e] at h1
      split at h1
      · next hb =>
        have hr1 : r1 = addF dim res u := (Except.ok.inj h1).symm
        obtain ⟨k1, k2⟩ := foldlM_matAdd_in us (res := r1) (by
          intro t ht
          rw [hr1] at ht
          rcases mem_mapSet ht with rfl | ht
          · exact hdim
          · exact hd t ht) h2 hk
        have hkey : ∀ x, (x = u.key ∨ x ∈ MonMap.keys res) → x.length = n + 1 := by
          intro x hx
          apply k1
          rw [hr1, addF, MonMap.mem_keys_set]
          exact hx
        refine ⟨fun x hx => hkey x (Or.inr hx), fun w hw => ?_⟩
        rcases List.mem_cons.1 hw with rfl | hw
        · exact ⟨hkey _ (Or.inl rfl), by rw [← hdim.1]; exact hb.1, by rw [← hdim.2]; exact hb.2⟩
        · exact k2 w hw
      · cases h1

/-! ### One iteration is its critical sections -/

theorem forRange_split {α σ : Type} {g : Nat → Res α} {h : α → σ → Res σ} : ∀ (k : Nat) {s s' : σ},
    forRange k s (fun j s => do let a ← g j; h a s) = .ok s' →
    ∃ as, (List.range k).mapM g = .ok as ∧ as.foldlM (fun s a => h a s) s = .ok s'
  | 0, s, s', e => ⟨[], rfl, e⟩
  | k + 1, s, s', e => by
      rw [forRange, Res.bind_eq_ok] at e
      obtain ⟨s1, e1, e2⟩ := e
      rw [Res.bind_eq_ok] at e2
      obtain ⟨a, e2, e3⟩ := e2
      obtain ⟨as, f1, f2⟩ := forRange_split k e1
      refine ⟨as ++ [a], ?_, ?_⟩
      · rw [List.range_succ, List.mapM_append, f1, Res.bind_ok, List.mapM_cons, e2]; rfl
      · rw [List.foldlM_append, f2, Res.bind_ok, List.foldlM_cons, e3]; rfl

theorem foldlM_split {α β σ : Type} {g : α → Res β} {h : β → σ → Res σ} : ∀ (l : List α) {s s' : σ},
    l.foldlM (fun s x => do let a ← g x; h a s) s = .ok s' →
    ∃ as, l.mapM g = .ok as ∧ as.foldlM (fun s a => h a s) s = .ok s'
  | [], s, s', e => ⟨[], rfl, e⟩
  | x :: l, s, s', e => by
      rw [List.foldlM_cons, Res.bind_eq_ok] at e
      obtain ⟨s1, e1, e2⟩ := e
      rw [Res.bind_eq_ok] at e1
      obtain ⟨a, e1, e3⟩ := e1
      obtain ⟨as, f1, f2⟩ := foldlM_split l e2
      refine ⟨a :: as, ?_, ?_⟩
      · rw [List.mapM_cons, e1, Res.bind_ok, f1]; rfl
      · rw [List.foldlM_cons, e3, Res.bind_ok, f2]

theorem ndCokernel_sec {N : ND R} {listT : List IVec} {B : List Nat} {off : Nat} {key : IVec} {F : CVec R} {col : Nat}
    {res res' : MonMap (CMat R)} (h : ndCokernel N listT B off key F col res = .ok res') :
    ∃ us, secCokernel N listT B off key F col = .ok us ∧ critical N.ndBasis.length us res = .ok res' := by
  have := forRange_split (g := fun j => (do
      let b ← aget B j
      let t ← aget listT b
      let row ← look N.ndDict t
      let x ← F.at (off + j)
      pure ⟨key, row, col, x⟩ : Res (Upd R)))
    (h := fun u res => matAdd N.ndBasis.length res u.key u.row u.col u.x) B.length (s := res) (s' := res') (by
      rw [← h, ndCokernel]
      congr 1
      funext j res
      simp only [bind_assoc, pure_bind])
  exact this

theorem ndConst_sec {N : ND R} {k col : Nat} {H : MonMap (CVec R)} {res res' : MonMap (CMat R)}
    (h : ndConst N k col H res = .ok res') :
    ∃ c, secConst k col H = .ok c ∧ c.foldlM (fun res us => critical N.ndBasis.length us res) res = .ok res' := by
  rw [ndConst] at h
  rw [secConst]
  by_cases hk : k = 0
  · rw [if_pos hk] at h ⊢
    obtain ⟨us, e1, e2⟩ := foldlM_split (g := fun e : IVec × CVec R => (do
        let x ← e.2.at 0
        pure ⟨e.1, 0, col, x⟩ : Res (Upd R)))
      (h := fun u res => matAdd N.ndBasis.length res u.key u.row u.col u.x) H (s := res) (s' := res') (by
        rw [← h]
        congr 1
        funext res e
        simp only [bind_assoc, pure_bind])
    refine ⟨[us], ?_, ?_⟩
    · rw [e1]; rfl
    · rw [List.foldlM_cons, critical, e2]; rfl
  · rw [if_neg hk] at h ⊢
    exact ⟨[], rfl, h⟩

theorem ndEntry_sec {N : ND R} {BU : List Nat × CMat R} {listS listT : List IVec} {k col : Nat} :
    ∀ (H : MonMap (CVec R)) {Hn : MonMap (CVec R)} {res : MonMap (CMat R)} (secs : List (List (Upd R)))
      {st : MonMap (CVec R) × MonMap (CMat R)},
    H.foldlM (ndEntry N BU listS listT k col) (Hn, res) = .ok st →
    ∃ new, H.foldlM (secEntry N BU listS listT k col) (Hn, secs) = .ok (st.1, secs ++ new) ∧
      new.foldlM (fun res us => critical N.ndBasis.length us res) res = .ok st.2
  | [], Hn, res, secs, st, h => by
      cases h
      exact ⟨[], by rw [List.append_nil]; rfl, rfl⟩
  | e :: H, Hn, res, secs, st, h => by
      rw [List.foldlM_cons, Res.bind_eq_ok] at h
      obtain ⟨s1, h1, h2⟩ := h
      rw [ndEntry, Res.bind_eq_ok] at h1
      obtain ⟨F, a1, h1⟩ := h1
      rw [Res.bind_eq_ok] at h1
      obtain ⟨Hnew, a2, h1⟩ := h1
      by_cases hk : k + 1 ≤ N.n
      · rw [if_pos hk, Res.bind_eq_ok] at h1
        obtain ⟨r1, a3, h1⟩ := h1
        cases h1
        obtain ⟨us, b1, b2⟩ := ndCokernel_sec a3
        obtain ⟨new, c1, c2⟩ := ndEntry_sec H (secs ++ [us]) h2
        refine ⟨us :: new, ?_, ?_⟩
        · rw [List.foldlM_cons, secEntry, a1, Res.bind_ok, a2, Res.bind_ok, if_pos hk, b1, Res.bind_ok]
          show List.foldlM (secEntry N BU listS listT k col) (Hnew, secs ++ [us]) H = _
          rw [c1, List.append_assoc]
          rfl
        · rw [List.foldlM_cons, b2, Res.bind_ok, c2]
      · rw [if_neg hk] at h1
        cases h1
        obtain ⟨new, c1, c2⟩ := ndEntry_sec H secs h2
        refine ⟨new, ?_, c2⟩
        rw [List.foldlM_cons, secEntry, a1, Res.bind_ok, a2, Res.bind_ok, if_neg hk]
        exact c1

theorem ndLoop_sec {N : ND R} {solves : List (List Nat × CMat R)} {col : Nat} : ∀ (k : Nat) {H : MonMap (CVec R)}
    {res res' : MonMap (CMat R)}, ndLoop N solves col k H res = .ok res' →
    ∃ secs, secLoop N solves col k H = .ok secs ∧
      secs.foldlM (fun res us => critical N.ndBasis.length us res) res = .ok res'
  | 0, H, res, res', h => ⟨[], rfl, h⟩
  | k + 1, H, res, res', h => by
      rw [ndLoop, Res.bind_eq_ok] at h
      obtain ⟨BU, a1, h⟩ := h
      rw [Res.bind_eq_ok] at h
      obtain ⟨listS, a2, h⟩ := h
      rw [Res.bind_eq_ok] at h
      obtain ⟨listT, a3, h⟩ := h
      rw [Res.bind_eq_ok] at h
      obtain ⟨st, a4, h⟩ := h
      rw [Res.bind_eq_ok] at h
      obtain ⟨r1, a5, h⟩ := h
      obtain ⟨new, b1, b2⟩ := ndEntry_sec H [] a4
      obtain ⟨c, c1, c2⟩ := ndConst_sec a5
      obtain ⟨rest, d1, d2⟩ := ndLoop_sec k h
      refine ⟨new ++ c ++ rest, ?_, ?_⟩
      · rw [secLoop, a1, Res.bind_ok, a2, Res.bind_ok, a3, Res.bind_ok, b1, Res.bind_ok, c1, Res.bind_ok, d1]
        rfl
      · rw [List.foldlM_append, List.foldlM_append, b2, Res.bind_ok, c2, Res.bind_ok, d2]

theorem ndColumn_sec {N : ND R} {solves : List (List Nat × CMat R)} {v : IVec} {col : Nat}
    {res res' : MonMap (CMat R)} (h : ndColumn N solves v col res = .ok res') :
    ∃ secs, secColumn N solves v col = .ok secs ∧
      secs.foldlM (fun res us => critical N.ndBasis.length us res) res = .ok res' := by
  rw [ndColumn, Res.bind_eq_ok] at h
  obtain ⟨b, a1, h⟩ := h
  by_cases hd : N.d = 0
  · rw [if_pos hd] at h; cases h
  · rw [if_neg hd, Res.bind_eq_ok] at h
    obtain ⟨_, a2, h⟩ := h
    rw [Res.bind_eq_ok] at h
    obtain ⟨st, a3, h⟩ := h
    obtain ⟨secs, b1, b2⟩ := ndLoop_sec _ h
    exact ⟨secs, by rw [secColumn, a1, Res.bind_ok, if_neg hd, a2, Res.bind_ok, a3, Res.bind_ok, b1], b2⟩

theorem forRange_sec {N : ND R} {solves : List (List Nat × CMat R)} {v : IVec} : ∀ (k : Nat)
    {res res' : MonMap (CMat R)}, forRange k res (fun col res => ndColumn N solves v col res) = .ok res' →
    ∃ secs, (List.range k).mapM (fun col => secColumn N solves v col) = .ok secs ∧ secs.length = k ∧
      secs.flatten.foldlM (fun res us => critical N.ndBasis.length us res) res = .ok res'
  | 0, res, res', h => ⟨[], rfl, rfl, h⟩
  | k + 1, res, res', h => by
      rw [forRange, Res.bind_eq_ok] at h
      obtain ⟨r1, h1, h2⟩ := h
      obtain ⟨secs, a1, al, a2⟩ := forRange_sec k h1
      obtain ⟨new, b1, b2⟩ := ndColumn_sec h2
      refine ⟨secs ++ [new], ?_, by simp [al], ?_⟩
      · rw [List.range_succ, List.mapM_append, a1, Res.bind_ok, List.mapM_cons, b1]; rfl
      · rw [List.flatten_append, List.foldlM_append, a2, Res.bind_ok]
        simpa using b2

/-- The additions are inside their matrices when the result is a map with keys of one length. -/
theorem run_perm {n dim : Nat} {secs order : List (List (Upd R))} (hp : List.Perm order secs)
    {res : MonMap (CMat R)} (h : secs.foldlM (fun res us => critical dim us res) [] = .ok res)
    (hk : MonMap.KeyLen (n + 1) res) :
    order.foldlM (fun res us => critical dim us res) [] = .ok res := by
  rw [foldlM_critical] at h ⊢
  have hin := (foldlM_matAdd_in (n := n) secs.flatten (by simp) h hk).2
  have hpf : List.Perm order.flatten secs.flatten := hp.flatten
  have hin' : ∀ u ∈ order.flatten, UpdIn n dim u := fun u hu => hin u (hpf.mem_iff.1 hu)
  rw [(foldlM_matAdd (n := n) _ (MapOK.nil _ _) hin).1] at h
  rw [(foldlM_matAdd (n := n) _ (MapOK.nil _ _) hin').1, foldl_addF_perm (n := n) hpf (MapOK.nil _ _) hin', h]

end

end Verif
