import Verif.Model.Construct
import Verif.Lemmas.InitSucceeds
import Verif.Lemmas.Smooth
import Mathlib.RingTheory.MvPolynomial.EulerIdentity

/-! The overloads of the constructors. -/

namespace Verif

open Spec MvPolynomial

/-! ### Assigning the entries of a table -/

theorem set_head {V : Type} (m : MonMap V) (k : IVec) (a b : V) : MonMap.set ((k, a) :: m) k b = (k, b) :: m := by
  rw [MonMap.set, if_pos rfl]

theorem setAll_tail {V : Type} (k : IVec) (a : V) : ∀ (l m : MonMap V), (∀ e ∈ l, e.1 ≠ k ∧ keyLt e.1 k = false) →
    MonMap.setAll ((k, a) :: m) l = (k, a) :: MonMap.setAll m l
  | [], _, _ => rfl
  | e :: l, m, h => by
    obtain ⟨h1, h2⟩ := h e (by simp)
    rw [MonMap.setAll_cons, MonMap.setAll_cons]
    rw [show MonMap.set ((k, a) :: m) e.1 e.2 = (k, a) :: MonMap.set m e.1 e.2 by
      rw [MonMap.set, if_neg h1, if_neg (by rw [h2]; decide)]]
    exact setAll_tail k a l _ (fun e he => h e (by simp [he]))

theorem later_keys {V : Type} {n : ℕ} {k : IVec} {L : List IVec} (hs : (k :: L).Pairwise LexLt)
    (hlen : ∀ t ∈ k :: L, t.length = n + 1) (w : List V) : ∀ e ∈ L.zip w, e.1 ≠ k ∧ keyLt e.1 k = false := by
  intro e he
  have hm : e.1 ∈ L := (List.of_mem_zip he).1
  have h1 : LexLt k e.1 := (List.pairwise_cons.1 hs).1 _ hm
  have hl1 := hlen k (by simp)
  have hl2 := hlen e.1 (by simp [hm])
  have hne : e.1 ≠ [] := by intro h0; rw [h0] at hl2; simp at hl2
  have hk : e.1 ≠ k := by
    intro h0
    rw [h0] at h1
    exact LexLt.irrefl k h1
  refine ⟨hk, ?_⟩
  rw [Bool.eq_false_iff, ne_eq, keyLt_iff (by omega) hne]
  intro h2
  exact LexLt.irrefl k (h1.trans h2)

theorem setAll_zip {V : Type} {n : ℕ} : ∀ (L : List IVec) (v w : List V), L.Pairwise LexLt →
    (∀ t ∈ L, t.length = n + 1) → L.length = v.length → L.length = w.length →
    MonMap.setAll (L.zip v) (L.zip w) = L.zip w
  | [], _, _, _, _, _, _ => rfl
  | k :: L, [], _, _, _, h, _ => by simp at h
  | k :: L, _ :: _, [], _, _, _, h => by simp at h
  | k :: L, a :: v, b :: w, hs, hlen, h1, h2 => by
    rw [List.zip_cons_cons, List.zip_cons_cons, MonMap.setAll_cons, set_head, setAll_tail k b _ _ (later_keys hs hlen w)]
    rw [setAll_zip L v w (List.pairwise_cons.1 hs).2 (fun t ht => hlen t (by simp [ht])) (by simpa using h1)
      (by simpa using h2)]

theorem setAll_nil_zip {V : Type} {n : ℕ} : ∀ (L : List IVec) (w : List V), L.Pairwise LexLt →
    (∀ t ∈ L, t.length = n + 1) → L.length = w.length → MonMap.setAll [] (L.zip w) = L.zip w
  | [], _, _, _, _ => rfl
  | k :: L, [], _, _, h => by simp at h
  | k :: L, b :: w, hs, hlen, h2 => by
    rw [List.zip_cons_cons, MonMap.setAll_cons]
    rw [show MonMap.set ([] : MonMap V) k b = [(k, b)] from rfl, setAll_tail k b _ _ (later_keys hs hlen w)]
    rw [setAll_nil_zip L w (List.pairwise_cons.1 hs).2 (fun t ht => hlen t (by simp [ht])) (by simpa using h2)]

theorem setAll_wfpoly {V : Type} {n : ℕ} (m : MonMap V) (hm : WFPoly (n + 1) m) : MonMap.setAll [] m = m := by
  have h := setAll_nil_zip (n := n) (m.map Prod.fst) (m.map Prod.snd) hm.2
    (by intro t ht; obtain ⟨e, he, rfl⟩ := List.mem_map.1 ht; exact (hm.1 e he).1) (by simp)
  rwa [List.zip_map', List.map_id'' (fun _ => rfl)] at h

theorem table_wf {V : Type} {n : ℕ} {d : ℕ} {L : List IVec} (hL : IsTable n d L) (w : List V)
    (h : L.length = w.length) : WFPoly (n + 1) (L.zip w) ∧ (∀ e ∈ L.zip w, deg e.1 = d) := by
  refine ⟨⟨?_, ?_⟩, ?_⟩
  · intro e he
    have := (hL.2 e.1).1 (List.of_mem_zip he).1
    exact ⟨this.1, this.2.1⟩
  · rw [List.map_fst_zip (by omega)]; exact hL.1
  · intro e he
    exact ((hL.2 e.1).1 (List.of_mem_zip he).1).2.2

theorem vecMap_ok {R : Type} {n d : ℕ} (h : (d + n).choose n < 2 ^ 63) (v : List R) :
    vecMap n d v = if v.length = (d + n).choose n then .ok ((comps n d).zip v) else .error .assertFail := by
  have hL := comps_isTable n d
  rw [vecMap, tupleListGenerator_eq d n h, Res.bind_ok, comps_length]
  by_cases hv : v.length = (d + n).choose n
  · rw [if_pos hv, decide_eq_true hv.symm, check_true, Res.bind_ok,
      setAll_nil_zip _ _ hL.1 (fun t ht => ((hL.2 t).1 ht).1) (by rw [comps_length, hv])]
  · rw [if_neg hv, decide_eq_false (fun h => hv h.symm), check_false]
    rfl

/-! ### The naive lift -/

/-- The polynomial with the representatives of the coefficients. -/
def repMap {p : ℕ} (q : ℕ) (f : MonMap (ZMod p)) : MonMap (ZMod q) := f.map (fun e => (e.1, ((e.2.val : ℕ) : ZMod q)))

theorem repMap_wf {p q n : ℕ} {f : MonMap (ZMod p)} (hf : WFPoly (n + 1) f) : WFPoly (n + 1) (repMap q f) := by
  refine ⟨?_, ?_⟩
  · intro e he
    obtain ⟨x, hx, rfl⟩ := List.mem_map.1 he
    exact hf.1 x hx
  · rw [repMap, List.map_map]; exact hf.2

theorem repMap_deg {p q : ℕ} {d : ℤ} {f : MonMap (ZMod p)} (hf : ∀ e ∈ f, deg e.1 = d) :
    ∀ e ∈ repMap q f, deg e.1 = d := by
  intro e he
  obtain ⟨x, hx, rfl⟩ := List.mem_map.1 he
  exact hf x hx

theorem repMap_ne {p q : ℕ} {f : MonMap (ZMod p)} (hf : f ≠ []) : repMap q f ≠ [] := by
  rw [repMap]; simpa using hf

theorem repMap_zip {p q : ℕ} (L : List IVec) (v : List (ZMod p)) :
    repMap q (L.zip v) = L.zip (v.map (fun c => ((c.val : ℕ) : ZMod q))) := by
  rw [repMap, List.zip_map_right]
  rfl

theorem naiveLift_eq {p q n : ℕ} {f : MonMap (ZMod p)} (hf : WFPoly (n + 1) f) : naiveLift q f = repMap q f :=
  setAll_wfpoly _ (repMap_wf hf)

theorem reduce_repMap {p q n : ℕ} [NeZero p] (h : p ∣ q) (f : MonMap (ZMod p)) :
    reduce h (toPoly (n + 1) (repMap q f)) = toPoly (n + 1) f := by
  induction f with
  | nil => simp [repMap, reduce]
  | cons e f ih =>
    rw [repMap, List.map_cons, toPoly_cons, toPoly_cons, ← ih, reduce, reduce, map_add, map_monomial, map_natCast,
      ZMod.natCast_zmod_val]
    rfl

variable {p N : ℕ} [Fact p.Prime]

theorem smooth_repMap {n : ℕ} (h : p ∣ p ^ N) (f : MonMap (ZMod p)) :
    SmoothMod h (toPoly (n + 1) (repMap (p ^ N) f)) ↔ NoCommonZero.{0} (fun i => pderiv i (toPoly (n + 1) f)) := by
  rw [SmoothMod, reduce_repMap]

theorem nondeg_repMap {n : ℕ} (h : p ∣ p ^ N) (f : MonMap (ZMod p)) :
    NondegMod h (toPoly (n + 1) (repMap (p ^ N) f)) ↔
      NoCommonZero.{0} (fun i => X i * pderiv i (toPoly (n + 1) f)) := by
  rw [NondegMod, reduce_repMap]

/-- When `p` divides the degree no hypersurface is non-degenerate. -/
theorem not_nondeg {F : Type} [Field F] {n d : ℕ} (hd : 1 ≤ d) (hF : (d : F) = 0) {P : MvPolynomial (Fin (n + 1)) F}
    (hP : P.IsHomogeneous d) : ¬ NoCommonZero.{0} (fun i => X i * pderiv i P) := by
  intro h
  obtain ⟨M, hM⟩ := pow_mem_of_noCommonZero h
  have hg : ∀ i, (X i * pderiv i P).IsHomogeneous d := by
    intro i
    have := (isHomogeneous_X F i).mul (hP.pderiv (i := i))
    rwa [show 1 + (d - 1) = d by omega] at this
  obtain ⟨A, -, -, -, -, h5, h6⟩ := trivSyz_full hg hM 0 (fun _ => 1) (fun _ => isHomogeneous_one _ _)
    (fun i hi => absurd i.isLt (by omega)) (by
      simp only [mul_one]
      rw [hP.sum_X_mul_pderiv]
      rw [nsmul_eq_mul, ← map_natCast (C : F →+* _), hF, map_zero, zero_mul])
  have h7 := h6 0
  simp only [h5 (by omega), zero_mul, Finset.sum_const_zero] at h7
  exact one_ne_zero h7

/-! ### The random constructors -/

theorem zero_pass {q : ℕ} (rnd : ℕ → ZMod p) {n d : ℕ} {L : List IVec} (hL : IsTable n d L) (pos : ℕ) {f : MonMap (ZMod q)}
    (hf : f = [] ∨ ∃ w, L.length = w.length ∧ f = L.zip w) :
    drawPass q rnd L pos f = repMap q (L.zip ((List.range L.length).map (fun i => rnd (pos + i)))) := by
  have hlen : ∀ t ∈ L, t.length = n + 1 := fun t ht => ((hL.2 t).1 ht).1
  rw [drawPass, repMap_zip, List.map_map]
  rcases hf with rfl | ⟨w, hw, rfl⟩
  · exact setAll_nil_zip L _ hL.1 hlen (by simp)
  · exact setAll_zip L _ _ hL.1 hlen hw (by simp)

/-- The `k`-th polynomial drawn. -/
def drawn (rnd : ℕ → ZMod p) (L : List IVec) (k : ℕ) : MonMap (ZMod p) :=
  L.zip ((List.range L.length).map (fun i => rnd (k * L.length + i)))

theorem drawLoop_ok {q : ℕ} (rnd : ℕ → ZMod p) {n d : ℕ} {L : List IVec} (hL : IsTable n d L)
    (test : MonMap (ZMod q) → Res Bool) (good : ℕ → Prop)
    (htest : ∀ k, ∃ b, test (repMap q (drawn rnd L k)) = .ok b ∧ (b = false ↔ good k)) :
    ∀ t k (f : MonMap (ZMod q)), (f = [] ∨ ∃ w, L.length = w.length ∧ f = L.zip w) →
      (∀ j, k ≤ j → j < k + t → (∀ i, k ≤ i → i < j → ¬ good i) → good j →
        drawLoop test rnd L t (k * L.length) f = .ok (some (repMap q (drawn rnd L j)))) ∧
      ((∀ i, k ≤ i → i < k + t → ¬ good i) → drawLoop test rnd L t (k * L.length) f = .ok none) := by
  intro t
  induction t with
  | zero => exact fun k f _ => ⟨fun j h1 h2 => by omega, fun _ => rfl⟩
  | succ t ih =>
    intro k f hf
    obtain ⟨b, hb, hg⟩ := htest k
    have hstep : drawLoop test rnd L (t + 1) (k * L.length) f =
        if b then drawLoop test rnd L t ((k + 1) * L.length) (repMap q (drawn rnd L k))
        else .ok (some (repMap q (drawn rnd L k))) := by
      rw [drawLoop, zero_pass rnd hL _ hf, show L.zip ((List.range L.length).map (fun i => rnd (k * L.length + i))) = drawn rnd L k from rfl,
        hb, Res.bind_ok, Nat.succ_mul]
    have hz : repMap q (drawn rnd L k) = L.zip (((List.range L.length).map (fun i => rnd (k * L.length + i))).map
      (fun c => ((c.val : ℕ) : ZMod q))) := repMap_zip _ _
    have hnext := ih (k + 1) (repMap q (drawn rnd L k)) (Or.inr ⟨_, by simp, hz⟩)
    rw [hstep]
    refine ⟨?_, ?_⟩
    · intro j h1 h2 h3 h4
      by_cases hj : j = k
      · subst hj
        rw [hg.2 h4]
        rfl
      · have hk : b = true := by
          by_contra hb'
          exact h3 k le_rfl (by omega) (hg.1 (by simpa using hb'))
        rw [if_pos hk]
        exact hnext.1 j (by omega) (by omega) (fun i hi hi' => h3 i (by omega) hi') h4
    · intro h3
      have hk : b = true := by
        by_contra hb'
        exact h3 k le_rfl (by omega) (hg.1 (by simpa using hb'))
      rw [if_pos hk]
      exact hnext.2 (fun i hi hi' => h3 i (by omega) (by omega))

theorem padicSolver_total {la : LinAlg (ZMod p)} (hla : LinAlgOK la) (flint : Bool) (precision : ℕ)
    (T : CMat (ZMod (p ^ N))) : ∃ B U, padicSolver p N la flint precision T = .ok (B, U) := by
  rw [padicSolver, solveSystemPadic]
  split
  · exact ⟨_, _, rfl⟩
  · obtain ⟨B1, U1, e1, -⟩ := solveSystemZZp_ok la hla true (T.map (fun x => (x.val : ZMod p)))
    rw [e1, Res.bind_ok]
    simp only
    split
    · exact ⟨_, _, rfl⟩
    · exact ⟨_, _, rfl⟩

section

variable (hN : 1 ≤ N) (h : p ∣ p ^ N) {la : LinAlg (ZMod p)} (hla : LinAlgOK la) (flint : Bool)
  {precision : ℕ} {n d : ℕ} (hsize : ∀ l ≤ (n + 1) * d, (l + n).choose n < 2 ^ 63)
  (hd : 2 ≤ d) (hnd : n < d)

include hN hla hnd

include hd in
theorem testJ_ok {f : MonMap (ZMod (p ^ N))} (hf : WFPoly (n + 1) f) (hdeg : ∀ e ∈ f, deg e.1 = d) :
    ∃ B U, solveJ (padicSolver p N la flint precision) (initTables n d f) (((d : ℤ) - 2) * (n + 1) + 1) = .ok (B, U) ∧
      (B.length = 0 ↔ SmoothMod h (toPoly (n + 1) f)) := by
  have hok := initTables_ok hf hdeg hnd
  have hd' : 2 ≤ (initTables n d f).d := hd
  obtain ⟨l, el, hl1, hl3, hl2⟩ := top_le hd'
  obtain ⟨L, S, T, -, -, -, -, eT, -⟩ := matrixJ_ok' hok.toTabOK (by omega) (l : ℤ) (by
    have e : (initTables n d f).d = d := rfl
    have e2 : (initTables n d f).n = n := rfl
    rw [e, e2] at hl3
    rw [e]
    have : d - 2 ≤ (d - 2) * (n + 1) := Nat.le_mul_of_pos_right _ (by omega)
    omega) (by exact_mod_cast hl2)
  obtain ⟨B, U, eU⟩ := padicSolver_total (N := N) hla flint precision T
  have e : solveJ (padicSolver p N la flint precision) (initTables n d f) (initTables n d f).topLevel = .ok (B, U) := by
    rw [el, solveJ, eT, Res.bind_ok, eU]
  exact ⟨B, U, e, topJ_iff hN h hla hok hd' e⟩

theorem testND_ok {f : MonMap (ZMod (p ^ N))} (hf : WFPoly (n + 1) f) (hdeg : ∀ e ∈ f, deg e.1 = d) :
    ∃ B U, solveND (padicSolver p N la flint precision) (initTables n d f) (((d : ℤ) - 1) * (n + 1) + 1) = .ok (B, U) ∧
      (B.length = 0 ↔ NondegMod h (toPoly (n + 1) f)) := by
  have hok := initTables_ok hf hdeg hnd
  have e0 : (initTables n d f).d = d := rfl
  have e2 : (initTables n d f).n = n := rfl
  obtain ⟨l, el, hl1, hl2⟩ := topND_le (D := initTables n d f) (by omega)
  obtain ⟨L, S, T, -, -, -, -, eT, -⟩ := matrixND_ok' hok.toTabOK (l : ℤ) (by
    rw [e0, e2] at hl1
    rw [e0]
    have : d - 1 ≤ (d - 1) * (n + 1) := Nat.le_mul_of_pos_right _ (by omega)
    omega) (by exact_mod_cast hl2)
  obtain ⟨B, U, eU⟩ := padicSolver_total (N := N) hla flint precision T
  have e : solveND (padicSolver p N la flint precision) (initTables n d f) (initTables n d f).topND = .ok (B, U) := by
    rw [el, solveND, eT, Res.bind_ok, eU]
  exact ⟨B, U, e, topND_iff hN h hla hok e⟩

variable {q : ℕ}

omit hN hla hnd in
theorem iget_comps {n d : ℕ} : iget ((List.range ((n + 1) * d + 1)).map (comps n)) d = .ok (comps n d) := by
  have : d < (n + 1) * d + 1 := by
    have : d ≤ (n + 1) * d := Nat.le_mul_of_pos_left _ (by omega)
    omega
  rw [iget, if_neg (by omega), aget_of_lt _ _ (by simpa using this)]
  simp

include hd hsize

/-- The random constructor, in terms of the polynomials drawn. -/
theorem randomJ_ok (solve : Solver (ZMod (p ^ N))) (rnd : ℕ → ZMod p) (t : ℕ) :
    (∀ j < t, (∀ i < j, ¬ NoCommonZero.{0} (fun x => pderiv x (toPoly (n + 1) (drawn rnd (comps n d) i)))) →
      NoCommonZero.{0} (fun x => pderiv x (toPoly (n + 1) (drawn rnd (comps n d) j))) →
      DR.random (p := p) solve (padicSolver p N la flint precision) rnd t n d =
        (do let D ← DR.init solve p (repMap (p ^ N) (drawn rnd (comps n d) j)); .ok (some D))) ∧
    ((∀ i < t, ¬ NoCommonZero.{0} (fun x => pderiv x (toPoly (n + 1) (drawn rnd (comps n d) i)))) →
      DR.random (p := p) solve (padicSolver p N la flint precision) rnd t n d = .ok none) := by
  have hL := comps_isTable n d
  have hwf : ∀ k, WFPoly (n + 1) (drawn rnd (comps n d) k) ∧ ∀ e ∈ drawn rnd (comps n d) k, deg e.1 = d :=
    fun k => table_wf hL _ (by simp)
  obtain ⟨h1, h2⟩ := drawLoop_ok (q := p ^ N) rnd hL (fun f => do
    let BU ← solveJ (padicSolver p N la flint precision) (initTables n d f) (((d : ℤ) - 2) * (n + 1) + 1)
    .ok (decide (BU.1.length ≠ 0)))
    (fun k => NoCommonZero.{0} (fun x => pderiv x (toPoly (n + 1) (drawn rnd (comps n d) k)))) (by
      intro k
      obtain ⟨B, U, e, hB⟩ := testJ_ok hN (dvd_pow_self p (by omega)) hla flint (precision := precision) hd hnd
        (repMap_wf (q := p ^ N) (hwf k).1) (repMap_deg (hwf k).2)
      rw [smooth_repMap] at hB
      refine ⟨decide (B.length ≠ 0), by rw [e]; rfl, ?_⟩
      rw [← hB, decide_eq_false_iff_not, not_not]) t 0 [] (Or.inl rfl)
  rw [zero_mul] at h1 h2
  refine ⟨?_, ?_⟩
  · intro j hj hi hs
    have := h1 j (by omega) (by omega) (fun i _ hi' => hi i hi') hs
    rw [DR.random, tupleTables_ok hsize, Res.bind_ok, iget_comps, Res.bind_ok]
    erw [this]
    rfl
  · intro hi
    have := h2 (fun i _ hi' => hi i (by omega))
    rw [DR.random, tupleTables_ok hsize, Res.bind_ok, iget_comps, Res.bind_ok]
    erw [this]
    rfl

theorem randomND_ok (solve : Solver (ZMod (p ^ N))) (rnd : ℕ → ZMod p) (t : ℕ) :
    (∀ j < t, (∀ i < j, ¬ NoCommonZero.{0} (fun x => X x * pderiv x (toPoly (n + 1) (drawn rnd (comps n d) i)))) →
      NoCommonZero.{0} (fun x => X x * pderiv x (toPoly (n + 1) (drawn rnd (comps n d) j))) →
      ND.random (p := p) solve (padicSolver p N la flint precision) rnd t n d =
        (do let D ← ND.init solve p (repMap (p ^ N) (drawn rnd (comps n d) j)); .ok (some D))) ∧
    ((∀ i < t, ¬ NoCommonZero.{0} (fun x => X x * pderiv x (toPoly (n + 1) (drawn rnd (comps n d) i)))) →
      ND.random (p := p) solve (padicSolver p N la flint precision) rnd t n d = .ok none) := by
  have hL := comps_isTable n d
  have hwf : ∀ k, WFPoly (n + 1) (drawn rnd (comps n d) k) ∧ ∀ e ∈ drawn rnd (comps n d) k, deg e.1 = d :=
    fun k => table_wf hL _ (by simp)
  obtain ⟨h1, h2⟩ := drawLoop_ok (q := p ^ N) rnd hL (fun f => do
    let BU ← solveND (padicSolver p N la flint precision) (initTables n d f) (((d : ℤ) - 1) * (n + 1) + 1)
    .ok (decide (BU.1.length ≠ 0)))
    (fun k => NoCommonZero.{0} (fun x => X x * pderiv x (toPoly (n + 1) (drawn rnd (comps n d) k)))) (by
      intro k
      obtain ⟨B, U, e, hB⟩ := testND_ok hN (dvd_pow_self p (by omega)) hla flint (precision := precision) hnd
        (repMap_wf (q := p ^ N) (hwf k).1) (repMap_deg (hwf k).2)
      rw [nondeg_repMap] at hB
      refine ⟨decide (B.length ≠ 0), by rw [e]; rfl, ?_⟩
      rw [← hB, decide_eq_false_iff_not, not_not]) t 0 [] (Or.inl rfl)
  rw [zero_mul] at h1 h2
  refine ⟨?_, ?_⟩
  · intro j hj hi hs
    have := h1 j (by omega) (by omega) (fun i _ hi' => hi i hi') hs
    rw [ND.random, tupleTables_ok hsize, Res.bind_ok, iget_comps, Res.bind_ok]
    erw [this]
    rfl
  · intro hi
    have := h2 (fun i _ hi' => hi i (by omega))
    rw [ND.random, tupleTables_ok hsize, Res.bind_ok, iget_comps, Res.bind_ok]
    erw [this]
    rfl

end

end Verif
