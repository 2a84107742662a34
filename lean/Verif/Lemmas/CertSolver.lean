import Verif.Props.SolveUnique
import Mathlib.Data.List.GetD

/-!
What `solve_system_padic` returns for a matrix, from a certificate: `B` and `U` written out, checked by a Boolean function.  By C83
the answer does not depend on the linear algebra library, so a run of the constructors and reductions can be evaluated from a table
of certificates.
-/

namespace Verif

open Spec

/-- Entry `(i, j)` of a matrix given by its rows. -/
def ent (L : List (List Nat)) (i j : Nat) : Nat := (L.getD i []).getD j 0

/-- `acc + a * row` modulo `q`. -/
def addMul (q a : Nat) (row acc : List Nat) : List Nat := List.zipWith (fun x y => (a * x + y) % q) row acc

/-- `acc + Σ a_i * row_i` modulo `q`. -/
def linComb (q : Nat) : List Nat → List (List Nat) → List Nat → List Nat
  | a :: as, r :: rs, acc => linComb q as rs (if a = 0 then acc else addMul q a r acc)
  | _, _, acc => acc

/-- A matrix, by its rows and its number of columns, and the answer of `solve_system`. -/
structure Cert where
  cols : Nat
  T : List (List Nat)
  B : List Nat
  U : List (List Nat)

/-- The unit vector. -/
def unitList (n r : Nat) : List Nat := (List.range n).map (fun c => if c = r then 1 else 0)

/-- The check of a certificate modulo `q`. -/
def Cert.good (q : Nat) (C : Cert) : Bool :=
  C.T.all (fun r => r.length == C.cols) && C.U.all (fun r => r.length == C.T.length) && (C.U.length == C.cols + C.B.length) &&
  decide (C.B.Pairwise (· < ·)) && C.B.all (fun b => decide (b < C.T.length)) &&
  (List.range C.T.length).all (fun r =>
    linComb q (C.T.getD r [] ++ C.B.map (fun b => if b = r then 1 else 0)) C.U (List.replicate C.T.length 0) ==
      unitList C.T.length r) &&
  (List.range C.B.length).all (fun i =>
    let y := C.U.getD (C.cols + i) []
    let b := C.B.getD i 0
    (linComb q y C.T (List.replicate C.cols 0) == List.replicate C.cols 0) && (y.getD b 0 == 1) &&
      (List.range C.T.length).all (fun k => decide (k ≤ b) || (y.getD k 0 == 0))) &&
  (List.range C.cols).all (fun l =>
    let y := C.U.getD l []
    y.all (fun x => x == 0) ||
      (let z := linComb q y C.T (List.replicate C.cols 0)
       (z.getD l 0 == 1) && (List.range l).all (fun k => z.getD k 0 == 0)))

/-- The matrix `U` of a certificate. -/
def Cert.mat (q : Nat) (C : Cert) : CMat (ZMod q) :=
  CMat.mk' (C.cols + C.B.length) C.T.length (fun i j => ((ent C.U i j : Nat) : ZMod q))

/-- The matrix of the certificate is `T`. -/
def Cert.fits {q : Nat} (C : Cert) (T : CMat (ZMod q)) : Bool :=
  (T.rows == C.T.length) && (T.cols == C.cols) &&
  (List.range C.T.length).all (fun r => (List.range C.cols).all (fun c => decide (T.e r c = ((ent C.T r c : Nat) : ZMod q))))

section

variable {q : Nat}

theorem addMul_length {a : Nat} {row acc : List Nat} (h : row.length = acc.length) : (addMul q a row acc).length = acc.length := by
  rw [addMul, List.length_zipWith, h, Nat.min_self]

theorem addMul_getD {a : Nat} {row acc : List Nat} (h : row.length = acc.length) (j : Nat) :
    (((addMul q a row acc).getD j 0 : Nat) : ZMod q) = (a : ZMod q) * ((row.getD j 0 : Nat) : ZMod q) + ((acc.getD j 0 : Nat) : ZMod q) := by
  rw [addMul]
  by_cases hj : j < acc.length
  · rw [List.getD_eq_getElem _ _ (by rw [List.length_zipWith]; omega), List.getElem_zipWith, List.getD_eq_getElem _ _ (by omega),
      List.getD_eq_getElem _ _ hj, ZMod.natCast_mod]
    push_cast
    rfl
  · rw [List.getD_eq_default _ _ (by rw [List.length_zipWith]; omega), List.getD_eq_default _ _ (by omega),
      List.getD_eq_default _ _ (by omega)]
    simp

theorem linComb_getD {n : Nat} : ∀ (as : List Nat) (L : List (List Nat)) (acc : List Nat), (∀ r ∈ L, r.length = n) → acc.length = n →
    as.length = L.length → ∀ j, (((linComb q as L acc).getD j 0 : Nat) : ZMod q) =
      ∑ i ∈ Finset.range as.length, ((as.getD i 0 : Nat) : ZMod q) * ((ent L i j : Nat) : ZMod q) + ((acc.getD j 0 : Nat) : ZMod q)
  | [], _, acc, _, _, _, j => by simp [linComb]
  | a :: as, [], acc, _, _, h, j => by simp at h
  | a :: as, r :: rs, acc, hL, hacc, h, j => by
    have hr := hL r (List.mem_cons_self ..)
    rw [linComb, linComb_getD as rs _ (fun x hx => hL x (List.mem_cons_of_mem _ hx)) (by
      split
      · exact hacc
      · rw [addMul_length (by omega), hacc]) (by simpa using h), List.length_cons, Finset.sum_range_succ']
    have e1 : ∀ i, ent (r :: rs) (i + 1) j = ent rs i j := fun i => rfl
    have e2 : ent (r :: rs) 0 j = r.getD j 0 := rfl
    simp only [List.getD_cons_succ, List.getD_cons_zero, e1, e2]
    split
    · rename_i h0; rw [h0]; simp
    · rw [addMul_getD (by omega)]; ring

theorem getD_zeros (n j : Nat) : (List.replicate n 0).getD j 0 = 0 := by
  rcases Nat.lt_or_ge j n with h | h
  · rw [List.getD_eq_getElem _ _ (by rwa [List.length_replicate]), List.getElem_replicate]
  · rw [List.getD_eq_default _ _ (by rwa [List.length_replicate])]

theorem Cert.good_spec {C : Cert} (hC : C.good q = true) {T : CMat (ZMod q)} (hT : C.fits T = true) :
    Solves T C.B (C.mat q) ∧
    (∀ i, i < C.B.length → (∀ j, j < T.cols → ∑ k ∈ Finset.range T.rows, (C.mat q).e (T.cols + i) k * T.e k j = 0) ∧
      (C.mat q).e (T.cols + i) (C.B.getD i 0) = 1 ∧ ∀ k, k < T.rows → C.B.getD i 0 < k → (C.mat q).e (T.cols + i) k = 0) ∧
    ∀ l, l < T.cols → (∀ k, k < T.rows → (C.mat q).e l k = 0) ∨
      (∑ k ∈ Finset.range T.rows, (C.mat q).e l k * T.e k l = 1 ∧
        ∀ j, j < l → ∑ k ∈ Finset.range T.rows, (C.mat q).e l k * T.e k j = 0) := by
  simp only [Cert.good, Bool.and_eq_true, List.all_eq_true, beq_iff_eq, decide_eq_true_eq, List.mem_range, Bool.or_eq_true] at hC
  obtain ⟨⟨⟨⟨⟨⟨⟨g1, g2⟩, g3⟩, g4⟩, g5⟩, g6⟩, g7⟩, g8⟩ := hC
  simp only [Cert.fits, Bool.and_eq_true, List.all_eq_true, beq_iff_eq, decide_eq_true_eq, List.mem_range] at hT
  obtain ⟨⟨t1, t2⟩, t3⟩ := hT
  have hTe : ∀ r c, r < T.rows → c < T.cols → T.e r c = ((ent C.T r c : Nat) : ZMod q) := fun r c hr hc =>
    t3 r (by omega) c (by omega)
  have hUe : ∀ i j, i < T.cols + C.B.length → j < T.rows → (C.mat q).e i j = ((ent C.U i j : Nat) : ZMod q) := fun i j hi hj =>
    if_pos (show i < C.cols + C.B.length ∧ j < C.T.length by omega)
  have hUl : ∀ i, i < T.cols + C.B.length → (C.U.getD i []).length = C.T.length := fun i hi => by
    rw [List.getD_eq_getElem _ _ (by omega)]
    exact g2 _ (List.getElem_mem _)
  have hTl : ∀ i, i < T.rows → (C.T.getD i []).length = C.cols := fun i hi => by
    rw [List.getD_eq_getElem _ _ (by omega)]
    exact g1 _ (List.getElem_mem _)
  have hyT : ∀ i, i < T.cols + C.B.length → ∀ j, j < T.cols →
      (((linComb q (C.U.getD i []) C.T (List.replicate C.cols 0)).getD j 0 : Nat) : ZMod q) =
        ∑ k ∈ Finset.range T.rows, (C.mat q).e i k * T.e k j := fun i hi j hj => by
    rw [linComb_getD _ _ _ g1 List.length_replicate (hUl i hi), getD_zeros, Nat.cast_zero, add_zero, hUl i hi, t1]
    refine Finset.sum_congr rfl (fun k hk => ?_)
    have hk := Finset.mem_range.1 hk
    rw [hUe i k hi (by omega), hTe k j (by omega) hj]
    rfl
  refine ⟨⟨g4, fun b hb => by rw [t1]; exact g5 b hb, by rw [t2]; rfl, by rw [t1]; rfl, ?_⟩, fun i hi => ⟨fun j hj => ?_, ?_, ?_⟩,
    fun l hl => ?_⟩
  · ext a b
    have ha := a.isLt
    have hb := b.isLt
    have h := congrArg (fun L : List Nat => ((L.getD b.val 0 : Nat) : ZMod q)) (g6 a.val (by omega))
    beta_reduce at h
    rw [linComb_getD _ _ _ g2 List.length_replicate (by rw [List.length_append, List.length_map, hTl a.val ha, g3]), getD_zeros,
      Nat.cast_zero, add_zero, List.length_append, List.length_map, hTl a.val ha, Finset.sum_range_add] at h
    rw [augment_mul_apply, Matrix.one_apply]
    have e : ((((unitList C.T.length a.val).getD b.val 0 : Nat)) : ZMod q) = if a = b then 1 else 0 := by
      rw [unitList, List.getD_eq_getElem _ _ (by rw [List.length_map, List.length_range]; omega), List.getElem_map, List.getElem_range]
      by_cases hab : a = b
      · rw [if_pos hab, if_pos (by rw [hab]), Nat.cast_one]
      · rw [if_neg hab, if_neg (fun h => hab (Fin.ext h.symm)), Nat.cast_zero]
    rw [← e, ← h, t2]
    congr 1
    · refine Finset.sum_congr rfl (fun l hl => ?_)
      have hl := Finset.mem_range.1 hl
      rw [hTe a.val l ha (by omega), hUe l b.val (by omega) hb, List.getD_append _ _ _ _ (by rw [hTl a.val ha]; exact hl)]
      rfl
    · refine Finset.sum_congr rfl (fun k hk => ?_)
      have hk := Finset.mem_range.1 hk
      rw [List.getD_append_right _ _ _ _ (by rw [hTl a.val ha]; omega), hTl a.val ha, Nat.add_sub_cancel_left,
        hUe _ b.val (by omega) hb, List.getD_eq_getElem C.B _ hk, List.getD_eq_getElem _ _ (by rwa [List.length_map]), List.getElem_map]
      by_cases hak : a.val = C.B[k]
      · rw [if_pos hak, if_pos hak.symm, Nat.cast_one, one_mul]
      · rw [if_neg hak, if_neg (fun h => hak h.symm), Nat.cast_zero, zero_mul]
  · rw [← hyT _ (by omega) j hj, t2, (g7 i hi).1.1, getD_zeros, Nat.cast_zero]
  · have hb : C.B.getD i 0 < C.T.length := by
      rw [List.getD_eq_getElem _ _ hi]
      exact g5 _ (List.getElem_mem _)
    rw [hUe _ _ (by omega) (by omega), t2, ent, (g7 i hi).1.2, Nat.cast_one]
  · intro k hk hik
    rw [hUe _ _ (by omega) hk, t2, ent]
    rcases (g7 i hi).2 k (by omega) with h | h
    · omega
    · rw [h, Nat.cast_zero]
  · rcases g8 l (by omega) with h | ⟨h, h'⟩
    · left
      intro k hk
      rw [hUe _ _ (by omega) hk, ent, List.getD_eq_getElem _ _ (by rw [hUl l (by omega)]; omega), h _ (List.getElem_mem _),
        Nat.cast_zero]
    · right
      refine ⟨by rw [← hyT l (by omega) l hl, h, Nat.cast_one], fun j hj => ?_⟩
      rw [← hyT l (by omega) j (by omega), h' j hj, Nat.cast_zero]

end

/-- A checked certificate gives the answer of `solve_system_padic`. -/
theorem Cert.padic {p N : Nat} [Fact p.Prime] (hN : 1 ≤ N) (la : LinAlg (ZMod p)) (hla : LinAlgOK la) (flint : Bool)
    (precision : Nat) (hprec : N ≤ precision) {C : Cert} (hC : C.good (p ^ N) = true) {T : CMat (ZMod (p ^ N))} (hT : C.fits T = true) :
    padicSolver p N la flint precision T = .ok (C.B, C.mat (p ^ N)) := by
  obtain ⟨hS, c1, c2⟩ := Cert.good_spec hC hT
  obtain ⟨B, U, r, c, e, h, hn, h1, h2, h3, h4, h5⟩ := solveSystemPadic_reduced la hla flint T precision hprec
  have hm : ∀ i j, i < T.rows → j < T.cols →
      (T.map (fun x => (x.val : ZMod p))).e i j = redMod p N hN (T.e i j) := by
    intro i j hi hj
    simp only [CMat.map, CMat.mk', if_pos (And.intro hi hj)]
    rw [redMod_val]
  have hB : B = C.B := by
    refine sorted_ext h.solves.sorted hS.sorted (fun b => ?_)
    rw [h4]
    constructor
    · rintro ⟨hb, a, ha⟩
      by_contra hnb
      -- the column `b` of `U`
      have hcol : ∀ k, k ≤ b → ∑ l ∈ Finset.range T.cols, T.e k l * (C.mat (p ^ N)).e l b = if k = b then 1 else 0 := by
        intro k hk
        have := congrFun (congrFun hS.eq ⟨k, by omega⟩) ⟨b, hb⟩
        rw [augment_mul_apply, Matrix.one_apply, Finset.sum_eq_zero (s := Finset.range C.B.length), add_zero] at this
        · rw [this]
          simp only [Fin.mk.injEq]
        · intro i hi
          have hi := Finset.mem_range.1 hi
          split
          · rename_i hki
            simp only at hki
            refine (c1 i hi).2.2 b hb ?_
            rcases Nat.lt_or_ge (C.B.getD i 0) b with hlt | hge
            · exact hlt
            · exfalso
              apply hnb
              have : C.B.getD i 0 = b := by omega
              rw [← this, List.getD_eq_getElem _ _ hi]
              exact List.getElem_mem _
          · rfl
      have e1 := congrArg (redMod p N hN) (hcol b (le_refl b))
      rw [if_pos rfl, map_one, map_sum] at e1
      apply one_ne_zero (α := ZMod p)
      rw [← e1]
      calc ∑ l ∈ Finset.range T.cols, redMod p N hN (T.e b l * (C.mat (p ^ N)).e l b)
          = ∑ l ∈ Finset.range T.cols, ∑ k ∈ Finset.range b, a k * redMod p N hN (T.e k l * (C.mat (p ^ N)).e l b) := by
            refine Finset.sum_congr rfl (fun l hl => ?_)
            have hl := Finset.mem_range.1 hl
            have := ha l hl
            rw [hm b l hb hl] at this
            rw [map_mul, this, Finset.sum_mul]
            refine Finset.sum_congr rfl (fun k hk => ?_)
            have hk := Finset.mem_range.1 hk
            rw [hm k l (by omega) hl, map_mul, mul_assoc]
        _ = 0 := by
            rw [Finset.sum_comm]
            refine Finset.sum_eq_zero (fun k hk => ?_)
            have hk := Finset.mem_range.1 hk
            rw [← Finset.mul_sum, ← map_sum, hcol k (by omega), if_neg (by omega), map_zero, mul_zero]
    · intro hb
      refine ⟨hS.lt b hb, ?_⟩
      obtain ⟨i, hi, rfl⟩ := List.getElem_of_mem hb
      obtain ⟨d1, d2, d3⟩ := c1 i hi
      rw [List.getD_eq_getElem _ _ hi] at d2 d3
      have hbl := hS.lt _ hb
      refine ⟨fun k => - redMod p N hN ((C.mat (p ^ N)).e (T.cols + i) k), fun j hj => ?_⟩
      have e1 := congrArg (redMod p N hN) (d1 j hj)
      rw [map_zero, map_sum, ← Finset.sum_range_add_sum_Ico _ (show C.B[i] + 1 ≤ T.rows by omega), Finset.sum_range_succ,
        Finset.sum_eq_zero (s := Finset.Ico _ _), add_zero, d2, one_mul] at e1
      · rw [hm _ j hbl hj]
        rw [← sub_eq_zero]
        rw [← e1, sub_eq_add_neg, ← Finset.sum_neg_distrib, add_comm]
        congr 1
        refine Finset.sum_congr rfl (fun k hk => ?_)
        have hk := Finset.mem_range.1 hk
        rw [hm k j (by omega) hj, map_mul, neg_mul, neg_neg]
      · intro k hk
        have hk := Finset.mem_Ico.1 hk
        rw [d3 k hk.2 (by omega), zero_mul, map_zero]
  subst hB
  have hz : ∀ l, l < T.cols → DependentCol (T.map (fun x => (x.val : ZMod p))) l → ∀ b, b < T.rows → (C.mat (p ^ N)).e l b = 0 := by
    rintro l hl ⟨a, ha⟩
    rcases c2 l hl with d | ⟨d1, d2⟩
    · exact d
    · exfalso
      apply one_ne_zero (α := ZMod p)
      have e1 := congrArg (redMod p N hN) d1
      rw [map_one, map_sum] at e1
      rw [← e1]
      calc ∑ k ∈ Finset.range T.rows, redMod p N hN ((C.mat (p ^ N)).e l k * T.e k l)
          = ∑ k ∈ Finset.range T.rows, ∑ j ∈ Finset.range l, a j * redMod p N hN ((C.mat (p ^ N)).e l k * T.e k j) := by
            refine Finset.sum_congr rfl (fun k hk => ?_)
            have hk := Finset.mem_range.1 hk
            have := ha k hk
            rw [hm k l hk hl] at this
            rw [map_mul, this, Finset.mul_sum]
            refine Finset.sum_congr rfl (fun j hj => ?_)
            have hj := Finset.mem_range.1 hj
            rw [hm k j hk (by omega), map_mul]
            ring
        _ = 0 := by
            rw [Finset.sum_comm]
            refine Finset.sum_eq_zero (fun j hj => ?_)
            have hj := Finset.mem_range.1 hj
            rw [← Finset.mul_sum, ← map_sum, d2 j hj, map_zero, mul_zero]
  have hU : C.mat (p ^ N) = U := by
    refine CMat.normal_ext (CMat.normal_mk' _ _ _) hn (by rw [hS.rows, h.solves.rows]) (by rw [hS.cols, h.solves.cols])
      (fun i b hi hb => ?_)
    rw [hS.rows] at hi
    rw [hS.cols] at hb
    exact solves_unique h1 h2 h3 hS h.solves (fun l hl hd => hz l hl ((h5 l hl).1 hd))
      (fun l hl hd => h.zero l hl ((h5 l hl).1 hd)) i b hi hb
  rw [padicSolver, e, hU]

/-- `solve`, with the answer from a table where it fits. -/
def tableSolver {q : Nat} (tab : List Cert) (solve : Solver (ZMod q)) : Solver (ZMod q) := fun T =>
  if T.cols = 0 then .ok (List.range T.rows, CMat.one T.rows)
  else match tab.find? (fun C => (C.T.length == T.rows) && (C.cols == T.cols)) with
    | none => solve T
    | some C => if C.fits T then .ok (C.B, C.mat q) else solve T

theorem tableSolver_padic {p N : Nat} [Fact p.Prime] (hN : 1 ≤ N) (la : LinAlg (ZMod p)) (hla : LinAlgOK la) (flint : Bool)
    (precision : Nat) (hprec : N ≤ precision) {tab : List Cert} (htab : tab.all (Cert.good (p ^ N)) = true) :
    tableSolver tab (padicSolver p N la flint precision) = padicSolver p N la flint precision := by
  funext T
  rw [tableSolver]
  split
  · rename_i h
    rw [padicSolver, solveSystemPadic, if_pos h]
  · split
    · rfl
    · rename_i C hC
      split
      · rename_i hf
        rw [Cert.padic hN la hla flint precision hprec (List.all_eq_true.1 htab C (List.mem_of_find?_eq_some hC)) hf]
      · rfl

end Verif
