import Verif.Model.NDBatch
import Verif.Lemmas.NDStep
import Verif.Lemmas.Batch
import Verif.Lemmas.PolyDeg
import Verif.Props.Poly

/-! Lemmas on the batched reductions of the non-degenerate object. -/

namespace Verif

open Spec

/-! ### Degrees of the expanded monomials -/

theorem headSum_eq {m : Nat} {key : IVec} (h : key.length = m + 1) : headSum (m + 1) key = key.sum := by
  have : ∀ k (a : Int), (List.range k).foldl (fun a i => a + key.getD i 0) a
      = a + ∑ i ∈ Finset.range k, key.getD i 0 := by
    intro k
    induction k with
    | zero => intro a; simp
    | succ k ih => intro a; rw [List.range_succ, List.foldl_append, ih, Finset.sum_range_succ]; simp [add_assoc]
  rw [headSum, this, zero_add, ← sum_ev h, Finset.sum_range]; rfl

theorem sum_replicate_set (n i : Nat) (hi : i < n) (a b : Int) :
    (((List.replicate (n + 1) (0 : Int)).set i a).set n b).sum = a + b := by
  have hl : (((List.replicate (n + 1) (0 : Int)).set i a).set n b).length = n + 1 := by simp
  rw [← sum_ev hl, Fin.sum_univ_castSucc]
  have h1 : ∀ j : Fin n, ev n (((List.replicate (n + 1) (0 : Int)).set i a).set n b) j.castSucc
      = if j = ⟨i, hi⟩ then a else 0 := by
    intro j
    rw [ev, getD_set _ _ _ _ (by simp), getD_set _ _ _ _ (by simp; omega)]
    have := j.isLt
    rw [if_neg (by simp; omega), getD_replicate_zero]
    by_cases h : j = ⟨i, hi⟩
    · rw [if_pos (by rw [h]; rfl), if_pos h]
    · rw [if_neg (fun h' => h (Fin.ext (by simpa using h'))), if_neg h]
  have h2 : ev n (((List.replicate (n + 1) (0 : Int)).set i a).set n b) (Fin.last n) = b := by
    rw [ev, getD_set _ _ _ _ (by simp), if_pos (by simp)]
  rw [h2, Finset.sum_congr rfl (fun j _ => h1 j)]
  simp

theorem monomialExtended_KD {n i : Nat} (hi : i < n) {ui vi : Int} {X : MonMap Int}
    (h : monomialExtended n i ui vi = .ok X) : KD ui X := by
  unfold monomialExtended at h
  refine forRange_keeps (fun _ m => KD ui m) _ (by intro e he; simp at he) ?_ h
  intro j s s' _ hs h
  rw [Res.bind_eq_ok] at h
  obtain ⟨b, -, h⟩ := h
  rw [← Except.ok.inj h]
  exact hs.set (by rw [sum_replicate_set n i hi]; omega) _

theorem changeOfVariablesMonomial_KD {k v : IVec} {r : MonMap Int} (h : changeOfVariablesMonomial k v = .ok r) :
    KD k.sum r := by
  unfold changeOfVariablesMonomial at h
  rw [Res.bind_eq_ok] at h
  obtain ⟨_, -, h⟩ := h
  simp only at h
  have := forRange_keeps (fun i (m : MonMap Int) => KD ((k.take i).sum) m) k.length ?_ ?_ h
  · rwa [List.take_length] at this
  · intro e he
    rw [List.mem_singleton] at he
    rw [he]; simp
  · intro i s s' hi hs h
    rw [Res.bind_eq_ok] at h
    obtain ⟨X, h1, h2⟩ := h
    have := mulMaps_KD hs (monomialExtended_KD hi h1) h2
    rw [List.take_add_one, List.getElem?_eq_getElem hi]
    simp only [Option.toList_some, List.sum_append, List.sum_cons, List.sum_nil, add_zero]
    rw [getD_getElem _ _ _ hi] at this
    rwa [add_comm] at this

section generic

variable {R : Type} [CommRing R]

/-! ### The polynomials with matrix coefficients in `u` and `x` -/

/-- The monomial of a key at `u` and `x`. -/
def kmon (n : Nat) (u : IVec) (x : Int) (key : IVec) : Int := ndMon n u key * x ^ (key.getD (n + 1) 0).toNat

theorem kmon_eq (n : Nat) (u : IVec) (x : Int) (key : IVec) : kmon n u x key = ∏ i : Fin (n + 1 + 1),
    (Fin.snoc (α := fun _ => Int) (fun i : Fin (n + 1) => u.getD i 0) x i) ^ (key.getD i 0).toNat := by
  rw [kmon, ndMon_eq]
  conv_rhs => rw [Fin.prod_univ_castSucc]
  congr 1
  · exact Finset.prod_congr rfl (fun i _ => by rw [Fin.snoc_castSucc]; rfl)
  · rw [Fin.snoc_last]; rfl

theorem choose_le_small {n a j : Nat} (hn : n ≤ 61) (ha : a ≤ n + 1) : a.choose j < 2 ^ 63 :=
  calc a.choose j ≤ 2 ^ a := Nat.choose_le_two_pow _ _
    _ ≤ 2 ^ 62 := Nat.pow_le_pow_right (by norm_num) (by omega)
    _ < 2 ^ 63 := by norm_num

/-- The expansion of one key. -/
theorem expand_key {n : Nat} (hn : n ≤ 61) {κ v : IVec} (hκ : KeyOK n (n + 1) κ) (hv : v.length = n + 1) :
    ∃ mons, changeOfVariablesMonomial κ v = .ok mons ∧
      (∀ e ∈ mons, KeyOK (n + 1) (n + 1) e.1 ∧ e.1.sum = κ.sum) ∧
      ∀ (u : IVec), u.length = n + 1 → ∀ x : Int, msum (fun key (c : Int) => kmon n u x key * c) mons
        = ndMon n (List.zipWith (fun a b => a + x * b) u v) κ := by
  have hb : ∀ a ∈ κ, ∀ j, a.toNat.choose j < 2 ^ 63 := by
    intro a ha j
    refine choose_le_small hn ?_
    have h1 : a ≤ κ.sum := List.single_le_sum (fun x hx => hκ.nonneg x hx) a ha
    have := hκ.deg
    omega
  obtain ⟨r, h1, h2, -⟩ := C11_shifted_monomial_partial κ v (by rw [hκ.len, hv]) hκ.nonneg hb
  have hkd := changeOfVariablesMonomial_KD h1
  refine ⟨r, h1, fun e he => ⟨⟨by rw [(h2.1 e he).1, hκ.len], (h2.1 e he).2, by rw [hkd e he]; exact hκ.deg⟩, hkd e he⟩, ?_⟩
  intro u hu x
  obtain ⟨r', h1', h3⟩ := C11_evaluates_partial (S := Int) κ v (by rw [hκ.len, hv]) hκ.nonneg hb (fun i => u.getD i 0) x
  rw [h1] at h1'
  obtain rfl := Except.ok.inj h1'
  have hl := hκ.len
  rw [msum]
  obtain ⟨m, hm⟩ : ∃ m, κ.length = m := ⟨_, rfl⟩
  have h4 : (r.map (fun e => e.2 * ∏ i : Fin (n + 1 + 1),
      (Fin.snoc (α := fun _ => Int) (fun i : Fin (n + 1) => u.getD i 0) x i) ^ (e.1.getD i 0).toNat)).sum
        = ∏ i : Fin (n + 1), (u.getD i 0 + v.getD i 0 * x) ^ (κ.getD i 0).toNat := by
    rw [hl] at h3
    simpa using h3
  rw [List.map_congr_left (g := fun e => e.2 * ∏ i : Fin (n + 1 + 1),
      (Fin.snoc (α := fun _ => Int) (fun i : Fin (n + 1) => u.getD i 0) x i) ^ (e.1.getD i 0).toNat)
      (fun e _ => by rw [kmon_eq, mul_comm]), h4, ndMon_eq, ev_axpy (by rw [hu, hv])]
  exact Finset.prod_congr rfl (fun i _ => by simp only [ev]; rw [mul_comm x])

/-- Entries: square matrices, keys with `n+2` entries, a key of degree `n+1` has only row 0. -/
def PRES (n dim : Nat) : MonMap (CMat R) → Prop :=
  MapOK (n + 1) (fun k M => KeyOK (n + 1) (n + 1) k ∧ M.rows = dim ∧ M.cols = dim ∧
    (k.sum = n + 1 → ∀ r c, r ≠ 0 → M.e r c = 0))

/-- The entry `(r, c)` at `u` and `x`. -/
def pval (n : Nat) (u : IVec) (x : Int) (r c : Nat) (E : MonMap (CMat R)) : R :=
  msum (fun key (M : CMat R) => ((kmon n u x key : Int) : R) * M.e r c) E

theorem CMat.mk'_congr {a b : Nat} {f g : Nat → Nat → R} (h : ∀ r c, r < a → c < b → f r c = g r c) :
    CMat.mk' a b f = CMat.mk' a b g := by
  unfold CMat.mk'
  congr 1
  funext r c
  by_cases hi : r < a ∧ c < b
  · rw [if_pos hi, if_pos hi, h r c hi.1 hi.2]
  · rw [if_neg hi, if_neg hi]

theorem addTop_eq {dim : Nat} (hdim : 0 < dim) {P M : CMat R} (hP : P.rows = dim ∧ P.cols = dim)
    (hM : M.rows = dim ∧ M.cols = dim) (row0 : Bool) (h0 : row0 = true → ∀ r c, r ≠ 0 → M.e r c = 0) (c : R) :
    addTop row0 P c M = .ok (CMat.mk' dim dim (fun r j => P.e r j + c * M.e r j)) := by
  obtain ⟨p1, p2⟩ := hP
  obtain ⟨m1, m2⟩ := hM
  cases row0 with
  | false => rw [addTop, if_neg (by simp), addScaled, if_pos ⟨by omega, by omega⟩, p1, p2]
  | true =>
    rw [addTop, if_pos rfl, addRow0, if_neg (by omega), if_pos (by omega), p1, p2]
    congr 1
    refine CMat.mk'_congr (fun r j _ _ => ?_)
    by_cases hr : r = 0
    · rw [if_pos hr, hr]
    · rw [if_neg hr, h0 rfl r j hr, mul_zero, add_zero]

theorem expandInto_ok {n dim : Nat} (hdim : 0 < dim) {s : Int} {M : CMat R} (hM : M.rows = dim ∧ M.cols = dim)
    (h0 : s = n + 1 → ∀ r c, r ≠ 0 → M.e r c = 0) :
    ∀ (mons : MonMap Int) (res : MonMap (CMat R)), PRES n dim res →
      (∀ e ∈ mons, KeyOK (n + 1) (n + 1) e.1 ∧ e.1.sum = s) →
      ∃ res', expandInto dim (decide (s = n + 1)) M mons res = .ok res' ∧ PRES n dim res' ∧
        ∀ u x r c, r < dim → c < dim → pval n u x r c res' = pval n u x r c res
          + ((msum (fun key (a : Int) => kmon n u x key * a) mons : Int) : R) * M.e r c := by
  intro mons
  induction mons with
  | nil => intro res hres _; exact ⟨res, rfl, hres, fun u x r c _ _ => by simp⟩
  | cons e mons ih =>
    intro res hres hk
    obtain ⟨hke, hse⟩ := hk e (by simp)
    obtain ⟨P, hP⟩ : ∃ P, P = (MonMap.find? res e.1).getD (CMat.mk' dim dim (fun _ _ => (0 : R))) := ⟨_, rfl⟩
    have hPd : P.rows = dim ∧ P.cols = dim ∧ (e.1.sum = n + 1 → ∀ r c, r ≠ 0 → P.e r c = 0) := by
      cases hf : MonMap.find? res e.1 with
      | none =>
        rw [hP, hf]
        refine ⟨rfl, rfl, fun _ r c _ => ?_⟩
        simp only [Option.getD_none, CMat.mk']
        split <;> rfl
      | some y =>
        rw [hP, hf]
        exact (hres.entry _ (mem_of_find? hf)).2
    have hset : PRES n dim (res.set e.1 (CMat.mk' dim dim (fun r j => P.e r j + (e.2 : R) * M.e r j))) := by
      refine MapOK.set hres hke.len ⟨hke, rfl, rfl, fun hs r c hr => ?_⟩
      simp only [CMat.mk']
      rw [hPd.2.2 hs r c hr, h0 (by rw [← hse]; exact hs) r c hr]
      simp
    obtain ⟨res', e1, e2, e3⟩ := ih _ hset (fun t ht => hk t (List.mem_cons_of_mem _ ht))
    refine ⟨res', ?_, e2, fun u x r c hr hc => ?_⟩
    · rw [expandInto, List.foldlM_cons]
      simp only
      rw [← hP, addTop_eq hdim ⟨hPd.1, hPd.2.1⟩ hM _ (fun h => h0 (of_decide_eq_true h)), Res.bind_ok, Res.bind_ok]
      exact e1
    · rw [e3 u x r c hr hc, pval, msum_upd hres _ hke.len (CMat.mk' dim dim (fun _ _ => 0)) _
        (x := ((kmon n u x e.1 * e.2 : Int) : R) * M.e r c), msum_cons, ← pval]
      · push_cast; ring
      · rw [CMat.mk'_e _ hr hc, mul_zero]
      · rw [← hP, CMat.mk'_e _ hr hc]; push_cast; ring

theorem PRES.filter [DecidableEq R] {n dim : Nat} {res : MonMap (CMat R)} (hres : PRES n dim res) :
    PRES n dim (res.filter (fun e => !e.2.isZero)) ∧ ∀ u x r c, r < dim → c < dim →
      pval n u x r c (res.filter (fun e => !e.2.isZero)) = pval n u x r c res := by
  refine ⟨⟨?_, ?_, fun t ht => hres.entry t (List.mem_filter.1 ht).1⟩, ?_⟩
  · intro x hx
    rw [MonMap.keys, List.mem_map] at hx
    obtain ⟨t, ht, rfl⟩ := hx
    exact hres.klen _ (List.mem_map.2 ⟨t, (List.mem_filter.1 ht).1, rfl⟩)
  · have := hres.sorted
    unfold MonMap.Sorted MonMap.keys at this ⊢
    exact this.sublist (List.Sublist.map _ List.filter_sublist)
  · intro u x r c hr hc
    have hall : ∀ t ∈ res, t.2.rows = dim ∧ t.2.cols = dim := fun t ht =>
      ⟨(hres.entry t ht).2.1, (hres.entry t ht).2.2.1⟩
    clear hres
    induction res with
    | nil => rfl
    | cons e res ih =>
      have ih := ih (fun t ht => hall t (List.mem_cons_of_mem _ ht))
      rw [List.filter_cons]
      unfold pval at ih ⊢
      cases hz : e.2.isZero with
      | true =>
        simp only [Bool.not_true, Bool.false_eq_true, if_false]
        rw [ih, msum_cons, CMat.isZero_spec hz r c (by rw [(hall e (by simp)).1]; exact hr)
          (by rw [(hall e (by simp)).2]; exact hc), mul_zero, zero_add]
      | false =>
        simp only [Bool.not_false, if_true]
        rw [msum_cons, msum_cons, ih]

/-- `compute_reduction_matrix_ND_poly(v)` holds the reduction matrices at `u + x v`. -/
theorem redMatNDPoly_ok [DecidableEq R] {solve : Solver R} {N : ND R} (hn : N.n ≤ 61) (hdim : 0 < N.ndBasis.length)
    {v : IVec} (hv : v.length = N.n + 1) {Ms : MonMap (CMat R)} (e : redMatND solve N v = .ok Ms)
    (hMs : RES N.n N.ndBasis.length Ms) :
    ∃ E, redMatNDPoly solve N v = .ok E ∧ PRES N.n N.ndBasis.length E ∧
      ∀ u, u.length = N.n + 1 → ∀ (x : Int) r c, r < N.ndBasis.length → c < N.ndBasis.length →
        pval N.n u x r c E = redSum N.n (List.zipWith (fun a b => a + x * b) u v) Ms r c := by
  have key : ∀ (l : MonMap (CMat R)) (res : MonMap (CMat R)), PRES N.n N.ndBasis.length res →
      (∀ t ∈ l, KeyOK N.n (N.n + 1) t.1 ∧ t.2.rows = N.ndBasis.length ∧ t.2.cols = N.ndBasis.length ∧
        (t.1.sum = N.n + 1 → ∀ r c, r ≠ 0 → t.2.e r c = 0)) →
      ∃ E, l.foldlM (fun res e => do
          let mons ← changeOfVariablesMonomial e.1 v
          expandInto N.ndBasis.length (decide (headSum (N.n + 1) e.1 = N.n + 1)) e.2 mons res) res = .ok E ∧
        PRES N.n N.ndBasis.length E ∧
        ∀ u, u.length = N.n + 1 → ∀ (x : Int) r c, r < N.ndBasis.length → c < N.ndBasis.length →
          pval N.n u x r c E = pval N.n u x r c res
            + redSum N.n (List.zipWith (fun a b => a + x * b) u v) l r c := by
    intro l
    induction l with
    | nil => intro res hres _; exact ⟨res, rfl, hres, fun u _ x r c _ _ => by simp [redSum]⟩
    | cons t l ih =>
      intro res hres hl
      obtain ⟨t1, t2, t3, t4⟩ := hl t (by simp)
      obtain ⟨mons, m1, m2, m3⟩ := expand_key hn t1 hv
      obtain ⟨res', e1, e2, e3⟩ := expandInto_ok (s := t.1.sum) hdim ⟨t2, t3⟩ t4 mons res hres m2
      obtain ⟨E, f1, f2, f3⟩ := ih res' e2 (fun t ht => hl t (List.mem_cons_of_mem _ ht))
      refine ⟨E, ?_, f2, fun u hu x r c hr hc => ?_⟩
      · rw [List.foldlM_cons, m1, Res.bind_ok, headSum_eq t1.len, e1, Res.bind_ok]; exact f1
      · rw [f3 u hu x r c hr hc, e3 u x r c hr hc, m3 u hu x, redSum, redSum, msum_cons]; ring
  obtain ⟨E, e1, e2, e3⟩ := key Ms [] (MapOK.nil _ _) hMs.entry
  refine ⟨E.filter (fun e => !e.2.isZero), by rw [redMatNDPoly, e, Res.bind_ok, e1, Res.bind_ok], e2.filter.1,
    fun u hu x r c hr hc => ?_⟩
  rw [e2.filter.2 u x r c hr hc, e3 u hu x r c hr hc]
  simp [pval]

/-! ### The polynomial in x -/

/-- The coefficient of `x^i`. -/
def pcoef (n : Nat) (u : IVec) (E : MonMap (CMat R)) (i r c : Nat) : R :=
  msum (fun key (M : CMat R) => if (key.getD (n + 1) 0).toNat = i then ((ndMon n u key : Int) : R) * M.e r c else 0) E

theorem KeyOK.getD_le {n b : Nat} {k : IVec} (h : KeyOK n b k) (i : Nat) : 0 ≤ k.getD i 0 ∧ k.getD i 0 ≤ b := by
  refine ⟨nonNeg_getD h.nonneg i, ?_⟩
  by_cases hi : i < k.length
  · rw [getD_getElem _ _ _ hi]
    have := List.single_le_sum (fun x hx => h.nonneg x hx) _ (List.getElem_mem hi)
    have := h.deg
    omega
  · rw [List.getD_eq_getElem?_getD, List.getElem?_eq_none (by omega)]; simp

theorem ndPolys_eq {n dim : Nat} (hdim : 0 < dim) (u : IVec) {E : MonMap (CMat R)} (hE : PRES n dim E) :
    ndPolys n dim u E = .ok (fun i => CMat.mk' dim dim (pcoef n u E i)) := by
  have key : ∀ (l : MonMap (CMat R)) (h : Nat → Nat → Nat → R),
      (∀ t ∈ l, KeyOK (n + 1) (n + 1) t.1 ∧ t.2.rows = dim ∧ t.2.cols = dim ∧
        (t.1.sum = n + 1 → ∀ r c, r ≠ 0 → t.2.e r c = 0)) →
      l.foldlM (ndPolyAdd n u) (fun i => CMat.mk' dim dim (h i)) =
        Except.ok (fun i => CMat.mk' dim dim (fun r c => h i r c + pcoef n u l i r c)) := by
    intro l
    induction l with
    | nil => intro h _; simp [pcoef, pure, Except.pure]
    | cons t l ih =>
      intro h hl
      obtain ⟨t1, t2, t3, t4⟩ := hl t (by simp)
      have hx := t1.getD_le (n + 1)
      rw [List.foldlM_cons, ndPolyAdd, if_neg (by push_cast at hx; omega), headSum_eq t1.len, addTop_eq hdim ⟨rfl, rfl⟩ ⟨t2, t3⟩ _
        (fun h => t4 (of_decide_eq_true h)), Res.bind_ok, Res.bind_ok]
      have : (fun i => if i = (t.1.getD (n + 1) 0).toNat then CMat.mk' dim dim (fun r j =>
            (CMat.mk' dim dim (h (t.1.getD (n + 1) 0).toNat)).e r j + ((ndMon n u t.1 : Int) : R) * t.2.e r j)
            else CMat.mk' dim dim (h i))
          = fun i => CMat.mk' dim dim (fun r c => h i r c +
            if (t.1.getD (n + 1) 0).toNat = i then ((ndMon n u t.1 : Int) : R) * t.2.e r c else 0) := by
        funext i
        by_cases hi : i = (t.1.getD (n + 1) 0).toNat
        · rw [if_pos hi]
          refine CMat.mk'_congr (fun r c hr hc => ?_)
          rw [CMat.mk'_e _ hr hc, if_pos hi.symm, hi]
        · rw [if_neg hi]
          refine CMat.mk'_congr (fun r c hr hc => ?_)
          rw [if_neg (Ne.symm hi), add_zero]
      rw [this, ih _ (fun t ht => hl t (List.mem_cons_of_mem _ ht))]
      congr 1
      funext i
      refine CMat.mk'_congr (fun r c hr hc => ?_)
      rw [pcoef, pcoef, msum_cons, add_assoc]
  rw [ndPolys, key E (fun _ _ _ => 0) hE.entry]
  congr 1
  funext i
  exact CMat.mk'_congr (fun r c hr hc => zero_add _)

/-- The coefficient of `x^(n+1)` has only row 0. -/
theorem pcoef_top {n dim : Nat} (u : IVec) {E : MonMap (CMat R)} (hE : PRES n dim E) {r : Nat} (hr : r ≠ 0) (c : Nat) :
    pcoef n u E (n + 1) r c = 0 := by
  have hall := hE.entry
  rw [pcoef, msum]
  refine List.sum_eq_zero (fun y hy => ?_)
  obtain ⟨t, ht, rfl⟩ := List.mem_map.1 hy
  split
  · rename_i h
    obtain ⟨t1, -, -, t4⟩ := hall t ht
    rw [t4 ?_ r c hr, mul_zero]
    have h1 := t1.getD_le (n + 1)
    have h2 : t.1.getD (n + 1) 0 ≤ t.1.sum := by
      have hi : n + 1 < t.1.length := by rw [t1.len]; omega
      rw [getD_getElem _ _ _ hi]
      exact List.single_le_sum (fun x hx => t1.nonneg x hx) _ (List.getElem_mem hi)
    have h3 := t1.deg
    push_cast at h3
    omega
  · rfl

theorem pcoef_sum {n dim : Nat} (u : IVec) {E : MonMap (CMat R)} (hE : PRES n dim E) (x : Nat) (r c : Nat) :
    ∑ i ∈ Finset.range (n + 2), (x : R) ^ i * pcoef n u E i r c = pval n u x r c E := by
  have hall := hE.entry
  clear hE
  induction E with
  | nil => simp [pcoef, pval]
  | cons t E ih =>
    have ih := ih (fun t ht => hall t (List.mem_cons_of_mem _ ht))
    have h1 := (hall t (by simp)).1.getD_le (n + 1)
    unfold pval pcoef at ih ⊢
    simp only [msum_cons, mul_add, Finset.sum_add_distrib]
    rw [ih]
    congr 1
    simp only [mul_ite, mul_zero]
    rw [Finset.sum_ite_eq, if_pos (Finset.mem_range.2 (by push_cast at h1; omega)), kmon]
    push_cast
    ring

theorem ndPolyStep_eq (red : R → R) {n dim : Nat} (hdim : 0 < dim) {g : Nat → Nat → Nat → R}
    (hg : ∀ r c, r < dim → c < dim → r ≠ 0 → g (n + 1) r c = 0) {P : Nat → CMat R}
    (hP : ∀ i, i ≤ n + 1 → P i = CMat.mk' dim dim (g i)) (x : Nat) {G : CVec R} (hG : G.len = dim) :
    ndPolyStep red n P x G = .ok (CVec.mk' dim (fun r => red
      (∑ c ∈ Finset.range dim, (∑ i ∈ Finset.range (n + 2), (x : R) ^ i * g i r c) * G.e c))) := by
  have hmul : ∀ i, i ≤ n + 1 → (P i).mulVec G = .ok (CVec.mk' dim (fun r => ∑ c ∈ Finset.range dim, g i r c * G.e c)) := by
    intro i hi
    rw [hP i hi, mulVec_eq (by rw [hG]; rfl)]
    congr 1
    refine CVec.mk'_congr (fun r hr => Finset.sum_congr rfl (fun c hc => ?_))
    rw [CMat.mk'_e _ (show r < dim from hr) (Finset.mem_range.1 hc)]
  obtain ⟨G1, e1, h1⟩ := forRange_inv (n := n) (s := CVec.mk' dim (fun r => ∑ c ∈ Finset.range dim, g 0 r c * G.e c))
    (f := fun i res => do
      let Gi ← (P (i + 1)).mulVec G
      if Gi.len = res.len then .ok (CVec.mk' res.len (fun r => res.e r + (x : R) ^ (i + 1) * Gi.e r))
      else .error .abort)
    (fun m (H : CVec R) => H = CVec.mk' dim (fun r => ∑ c ∈ Finset.range dim,
      (∑ i ∈ Finset.range (m + 1), (x : R) ^ i * g i r c) * G.e c)) (by simp) (by
      rintro i H hi rfl
      rw [hmul (i + 1) (by omega), Res.bind_ok]
      refine ⟨_, if_pos rfl, ?_⟩
      refine CVec.mk'_congr (fun r hr => ?_)
      have hr' : r < dim := hr
      rw [mk'_e_of_lt _ hr', mk'_e_of_lt _ hr', Finset.mul_sum, ← Finset.sum_add_distrib]
      refine Finset.sum_congr rfl (fun c _ => ?_)
      rw [Finset.sum_range_succ _ (i + 1)]; ring)
  rw [ndPolyStep, hmul 0 (by omega), Res.bind_ok, e1, Res.bind_ok, h1, hP (n + 1) (by omega),
    if_neg (by simp only [CMat.mk', CVec.mk']; omega), if_pos (by rw [hG]; rfl)]
  congr 1
  refine CVec.mk'_congr (fun r hr => ?_)
  have hr' : r < dim := hr
  rw [mk'_e_of_lt _ hr', sumLoop_eq_sum, hG]
  congr 1
  by_cases h0 : r = 0
  · subst h0
    rw [if_pos rfl, Finset.mul_sum, ← Finset.sum_add_distrib]
    refine Finset.sum_congr rfl (fun c hc => ?_)
    rw [CMat.mk'_e _ hr' (Finset.mem_range.1 hc), Finset.sum_range_succ _ (n + 1)]; ring
  · rw [if_neg h0, add_zero]
    refine Finset.sum_congr rfl (fun c hc => ?_)
    rw [Finset.sum_range_succ _ (n + 1), hg r c hr' (Finset.mem_range.1 hc) h0, mul_zero, add_zero]

end generic

end Verif

namespace Verif

open Spec

theorem n_le_of_size {n d : Nat} (hd : n < d) (h : ∀ l ≤ (n + 1) * d, (l + n).choose n < 2 ^ 63) : n ≤ 61 := by
  by_contra hn
  have hl : 62 ≤ (n + 1) * d := by nlinarith
  have h1 := h 62 hl
  have h2 : (62 + 62).choose 62 ≤ (62 + n).choose 62 := Nat.choose_le_choose 62 (by omega)
  rw [← Nat.choose_symm_add] at h1
  have h2' : (62 + 62).choose 62 < 2 ^ 63 := lt_of_le_of_lt h2 h1
  exact absurd h2' (by decide +kernel)

theorem sum_axpy {n : Nat} {u v : IVec} (hu : u.length = n + 1) (hv : v.length = n + 1) (x : Int) :
    (List.zipWith (fun a b => a + x * b) u v).sum = u.sum + x * v.sum := by
  have hl : (List.zipWith (fun a b => a + x * b) u v).length = n + 1 := by rw [List.length_zipWith, hu, hv, min_self]
  rw [← sum_ev hl, ev_axpy (by rw [hu, hv]), Finset.sum_add_distrib, ← Finset.mul_sum, sum_ev hu, sum_ev hv]

section

variable {R : Type} [CommRing R] [DecidableEq R]

/-- What the batched functions read: the polynomial, and the single steps in terms of it. -/
theorem ndPoly_ok {solve : Solver R} (hsolve : SolverOK solve) {N : ND R} (hN : NDOk solve N) (hn : N.n ≤ 61)
    (hdim : 0 < N.ndBasis.length) {u v : IVec} (hu : u.length = N.n + 1) (hv : IsTuple (N.n + 1) N.d v) {m : Int}
    (hm : u.sum = m * N.d) :
    ∃ E, redMatNDPoly solve N v = .ok E ∧ PRES N.n N.ndBasis.length E ∧
      ndPolys N.n N.ndBasis.length u E = .ok (fun i => CMat.mk' N.ndBasis.length N.ndBasis.length (pcoef N.n u E i)) ∧
      ∀ (x : Nat) (G : CVec R), G.len = N.ndBasis.length →
        reduceVectorND solve N (List.zipWith (fun a b => a + (x : Int) * b) u v) v G = .ok (CVec.mk' N.ndBasis.length
          (fun r => ∑ c ∈ Finset.range N.ndBasis.length,
            (∑ i ∈ Finset.range (N.n + 2), (x : R) ^ i * pcoef N.n u E i r c) * G.e c)) := by
  have hd := hN.dr.hd
  obtain ⟨res, e, hres, -⟩ := redMatND_ok hsolve hN hv
  obtain ⟨E, e1, e2, e3⟩ := redMatNDPoly_ok hn hdim hv.1 e hres
  refine ⟨E, e1, e2, ndPolys_eq hdim u e2, fun x G hG => ?_⟩
  rw [reduceVectorND_eq (m := m + x) hd hv.2.2 (by rw [sum_axpy hu hv.1, hm]; rw [show v.sum = N.d from hv.2.2]; ring) e hres hG]
  congr 1
  refine CVec.mk'_congr (fun r hr => Finset.sum_congr rfl (fun c hc => ?_))
  rw [pcoef_sum u e2, e3 u hu x r c hr (Finset.mem_range.1 hc)]

end

section overZ

variable {q : Nat} [NeZero q]

theorem map_lift_e {M : CMat (ZMod q)} {r c : Nat} (hr : r < M.rows) (hc : c < M.cols) :
    (M.map liftZ).e r c = liftZ (M.e r c) := by
  rw [CMat.map, CMat.mk'_e _ hr hc]

theorem PRES.lift {n dim : Nat} {E : MonMap (CMat (ZMod q))} (hE : PRES n dim E) :
    PRES n dim (E.map (fun e => (e.1, e.2.map liftZ))) := by
  have hk : MonMap.keys (E.map (fun e => (e.1, e.2.map liftZ))) = MonMap.keys E := by
    rw [MonMap.keys, MonMap.keys, List.map_map]; rfl
  refine ⟨?_, ?_, ?_⟩
  · have := hE.klen
    unfold MonMap.KeyLen at this ⊢
    rwa [hk]
  · have := hE.sorted
    unfold MonMap.Sorted at this ⊢
    rwa [hk]
  · intro t ht
    obtain ⟨s, hs, rfl⟩ := List.mem_map.1 ht
    obtain ⟨h1, h2, h3, h4⟩ := hE.entry s hs
    refine ⟨h1, h2, h3, fun hs r c hr => ?_⟩
    simp only [CMat.map, CMat.mk']
    rw [h4 hs r c hr]
    simp [liftZ]

theorem pcoef_lift {n dim : Nat} {E : MonMap (CMat (ZMod q))} (hE : PRES n dim E) (u : IVec) (i : Nat) {r c : Nat}
    (hr : r < dim) (hc : c < dim) :
    ((pcoef n u (E.map (fun e => (e.1, e.2.map liftZ))) i r c : Int) : ZMod q) = pcoef n u E i r c := by
  have hall : ∀ t ∈ E, t.2.rows = dim ∧ t.2.cols = dim := fun t ht => ⟨(hE.entry t ht).2.1, (hE.entry t ht).2.2.1⟩
  clear hE
  induction E with
  | nil => simp [pcoef]
  | cons t E ih =>
    have ih := ih (fun t ht => hall t (List.mem_cons_of_mem _ ht))
    obtain ⟨h1, h2⟩ := hall t (by simp)
    unfold pcoef at ih ⊢
    rw [List.map_cons, msum_cons, msum_cons, Int.cast_add, ih]
    congr 1
    split
    · rw [map_lift_e (by omega) (by omega)]
      push_cast
      rw [cast_liftZ]
    · simp

/-- The loop over `ZZ` and the one over `ZZ_p`. -/
theorem ndPolyLoop_congr {n dim : Nat} (hdim : 0 < dim) {gZ : Nat → Nat → Nat → Int} {g : Nat → Nat → Nat → ZMod q}
    (hZ0 : ∀ r c, r < dim → c < dim → r ≠ 0 → gZ (n + 1) r c = 0) (hg0 : ∀ r c, r < dim → c < dim → r ≠ 0 → g (n + 1) r c = 0)
    (hc : ∀ i r c, i ≤ n + 1 → r < dim → c < dim → ((gZ i r c : Int) : ZMod q) = g i r c) {PZ : Nat → CMat Int}
    {P : Nat → CMat (ZMod q)} (hPZ : ∀ i, i ≤ n + 1 → PZ i = CMat.mk' dim dim (gZ i))
    (hP : ∀ i, i ≤ n + 1 → P i = CMat.mk' dim dim (g i)) (k : Nat) :
    ∀ (GZ : CVec Int) (G : CVec (ZMod q)), CongrVec GZ G → G.len = dim →
    ∃ HZ H, ndPolyLoop (· % (q : Int)) n PZ k GZ = .ok HZ ∧ ndPolyLoop id n P k G = .ok H ∧ CongrVec HZ H ∧
      H.len = dim ∧ ((1 ≤ k ∨ Reduced q GZ) → Reduced q HZ) ∧ (k = 0 → HZ = GZ) := by
  induction k with
  | zero => intro GZ G h hl; exact ⟨GZ, G, rfl, rfl, h, hl, (by rintro (h | h); omega; exact h), fun _ => rfl⟩
  | succ k ih =>
    intro GZ G h hl
    have e1 := ndPolyStep_eq (· % (q : Int)) hdim hZ0 hPZ k (G := GZ) (by rw [h.1, hl])
    have e2 := ndPolyStep_eq id hdim hg0 hP k (G := G) hl
    obtain ⟨HZ, H, a1, a2, a3, a4, a5, -⟩ := ih _ _ (show CongrVec (CVec.mk' dim (fun r =>
        (∑ c ∈ Finset.range dim, (∑ i ∈ Finset.range (n + 2), (k : Int) ^ i * gZ i r c) * GZ.e c) % (q : Int)))
        (CVec.mk' dim (fun r => id (∑ c ∈ Finset.range dim,
          (∑ i ∈ Finset.range (n + 2), (k : ZMod q) ^ i * g i r c) * G.e c))) from by
      refine ⟨rfl, fun r hr => ?_⟩
      have hr' : r < dim := hr
      rw [mk'_e_of_lt _ hr', mk'_e_of_lt _ hr', ZMod.intCast_mod, id]
      push_cast
      refine Finset.sum_congr rfl (fun c hc' => ?_)
      have hc' := Finset.mem_range.1 hc'
      rw [h.2 c (by omega)]
      congr 1
      refine Finset.sum_congr rfl (fun i hi => ?_)
      rw [hc i r c (by have := Finset.mem_range.1 hi; omega) hr' hc']) rfl
    refine ⟨HZ, H, ?_, ?_, a3, a4, fun _ => a5 (Or.inr ?_), by omega⟩
    · rw [ndPolyLoop, e1, Res.bind_ok]; exact a1
    · rw [ndPolyLoop, e2, Res.bind_ok]; exact a2
    · intro r hr
      have hr' : r < dim := hr
      have hq : (0 : Int) < q := by have := NeZero.pos q; omega
      rw [mk'_e_of_lt _ hr']
      exact ⟨Int.emod_nonneg _ (by omega), Int.emod_lt_of_pos _ hq⟩

/-- The polynomial over `ZZ`. -/
theorem getNDPolyZ_ok {solve : Solver (ZMod q)} (hsolve : SolverOK solve) {N : ND (ZMod q)} (hN : NDOk solve N)
    (hn : N.n ≤ 61) (hdim : 0 < N.ndBasis.length) {u v : IVec} (hu : u.length = N.n + 1)
    (hv : IsTuple (N.n + 1) N.d v) {m : Int} (hm : u.sum = m * N.d) (hne : redMatNDPoly solve N v ≠ .ok []) :
    ∃ (E : MonMap (CMat (ZMod q))) (gZ : Nat → Nat → Nat → Int), redMatNDPoly solve N v = .ok E ∧ PRES N.n N.ndBasis.length E ∧
      getNDPolyZ solve N u v = .ok (fun i => CMat.mk' N.ndBasis.length N.ndBasis.length (gZ i)) ∧
      (∀ r c, r ≠ 0 → gZ (N.n + 1) r c = 0) ∧ (∀ i r c, 0 ≤ gZ i r c ∧ gZ i r c < q) ∧
      ∀ i r c, r < N.ndBasis.length → c < N.ndBasis.length → ((gZ i r c : Int) : ZMod q) = pcoef N.n u E i r c := by
  obtain ⟨E, e1, e2, -⟩ := ndPoly_ok hsolve hN hn hdim hu hv hm
  have hE : E ≠ [] := by rintro rfl; exact hne e1
  refine ⟨E, fun i r c => pcoef N.n u (E.map (fun e => (e.1, e.2.map liftZ))) i r c % (q : Int), e1, e2, ?_, ?_, ?_, ?_⟩
  · rw [getNDPolyZ, hv.1, decide_eq_true rfl, check_true, Res.bind_ok, hu, decide_eq_true rfl, check_true, Res.bind_ok,
      checkND_ok hN.dr.hd hv.2.2 hm, Res.bind_ok, redMatNDPolyZ, e1, Res.bind_ok,
      if_neg (by rw [List.isEmpty_iff]; exact hE), Res.bind_ok, ndPolys_eq hdim u e2.lift, Res.bind_ok]
    congr 1
    funext i
    exact CMat.mk'_congr (fun r c hr hc => by
      rw [CMat.mk'_e _ (show r < N.ndBasis.length from hr) (show c < N.ndBasis.length from hc)])
  · intro r c hr
    simp only
    rw [pcoef_top u e2.lift hr]; simp
  · intro i r c
    have hq : (0 : Int) < q := by have := NeZero.pos q; omega
    exact ⟨Int.emod_nonneg _ (by omega), Int.emod_lt_of_pos _ hq⟩
  · intro i r c hr hc
    simp only
    rw [ZMod.intCast_mod, pcoef_lift e2 u i hr hc]

end overZ

/-! ### nmod -/

section nmod

variable {q : Nat}

theorem allReduced_iff {l : Nat} {e : Nat → Int} : allReduced q l e = true ↔ ∀ i, i < l → 0 ≤ e i ∧ e i < q := by
  rw [allReduced, List.all_eq_true]
  constructor
  · intro h i hi; exact of_decide_eq_true (h i (List.mem_range.2 hi))
  · intro h i hi; exact decide_eq_true (h i (List.mem_range.1 hi))

theorem nmodVec_ok {d : Nat} {G : CVec Int} (hl : d ≤ G.len) (h : ∀ i, i < d → 0 ≤ G.e i ∧ G.e i < q) :
    nmodVec q d G = .ok (CVec.mk' d (fun i => ((G.e i : Int) : ZMod q))) := by
  rw [nmodVec, if_pos ⟨hl, allReduced_iff.2 h⟩]

theorem nmodMat_ok {d : Nat} {M : CMat Int} (h1 : d ≤ M.rows) (h2 : d ≤ M.cols)
    (h : ∀ r c, r < d → c < d → 0 ≤ M.e r c ∧ M.e r c < q) :
    nmodMat q d M = .ok (CMat.mk' d d (fun r c => ((M.e r c : Int) : ZMod q))) := by
  rw [nmodMat, if_pos ⟨h1, h2, List.all_eq_true.2 (fun j hj => allReduced_iff.2 (h j · (List.mem_range.1 hj)))⟩]

theorem nmodMats_ok {d : Nat} {Ms : Nat → CMat Int} (len : Nat)
    (h : ∀ i, i < len → d ≤ (Ms i).rows ∧ d ≤ (Ms i).cols ∧
      ∀ r c, r < d → c < d → 0 ≤ (Ms i).e r c ∧ (Ms i).e r c < q) :
    nmodMats q d Ms len = .ok (fun i => if i < len then CMat.mk' d d (fun r c => (((Ms i).e r c : Int) : ZMod q))
      else CMat.mk' d d (fun _ _ => 0)) := by
  induction len with
  | zero => simp [nmodMats]
  | succ m ih =>
    obtain ⟨h1, h2, h3⟩ := h m (by omega)
    rw [nmodMats, ih (fun i hi => h i (by omega)), Res.bind_ok, nmodMat_ok h1 h2 h3, Res.bind_ok]
    congr 1
    funext i
    by_cases hi : i = m
    · subst hi; simp
    · rw [if_neg hi]
      simp only
      by_cases hi' : i < m
      · rw [if_pos hi', if_pos (by omega)]
      · rw [if_neg hi', if_neg (by omega)]

end nmod

end Verif
