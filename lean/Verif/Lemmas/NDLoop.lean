import Verif.Lemmas.NDRed
import Verif.Spec.ND

/-!
The loop of `compute_reduction_matrix_ND`, column by column.
-/

namespace Verif

open Spec MvPolynomial

variable {R : Type} [CommRing R]

/-- `Ψ` turns `x^w x_i ∂_i f` into `(u_i + w_i) x^w`: the logarithmic relations at `u`. -/
def TorRel {n : Nat} (d : Nat) (f : MvPolynomial (Fin (n + 1)) R) (u : Fin (n + 1) → ℤ) {W : Type}
    [AddCommGroup W] [Module R W] (Ψ : MvPolynomial (Fin (n + 1)) R →ₗ[R] W) : Prop :=
  ∀ (w : Fin (n + 1) → ℤ) (i : Fin (n + 1)) (k : Nat), (∀ j, 0 ≤ w j) → ∑ j, w j = k * d →
    Ψ (xpow R w * xd i f) = ((u i + w i : ℤ) : R) • Ψ (xpow R w)

section

theorem scatter_rel {W : Type} [AddCommGroup W] [Module R W] {n d : Nat} {f : MvPolynomial (Fin (n + 1)) R} {u : IVec}
    {Ψ : MvPolynomial (Fin (n + 1)) R →ₗ[R] W} (hΨ : TorRel d f (ev n u) Ψ) {cnt k : Nat} {t : Nat → IVec}
    (ht : ∀ s, s < cnt → IsTuple (n + 1) ((k : Int) * d) (t s)) (F : Nat → R) :
    Ψ (∑ i : Fin (n + 1), ∑ s ∈ Finset.range cnt, F (i.val * cnt + s) • (xpow R (ev n (t s)) * xd i f))
      = Ψ (scatterVal n u cnt t F) := by
  rw [scatterVal, map_sum, map_sum]
  refine Finset.sum_congr rfl (fun i _ => ?_)
  rw [map_sum, map_sum]
  refine Finset.sum_congr rfl (fun s hs => ?_)
  have h := ht s (Finset.mem_range.1 hs)
  rw [map_smul, map_smul, hΨ _ i k (ev_nonneg h) (sum_ev_tuple h), smul_smul]

/-- The decomposition of a vector: `U G` in place of the columns of `U`. -/
theorem decomp_vec {n : Nat} {L S : List IVec} {B : List Nat} {U : CMat R} {g : Fin (n + 1) → MvPolynomial (Fin (n + 1)) R}
    (hr : U.rows = (n + 1) * S.length + B.length)
    (hdec : ∀ k, k < L.length → xpow R (ev n (L.getD k []))
        = ∑ i : Fin (n + 1), combo n S (fun s => U.e (i.val * S.length + s) k) * g i
          + ∑ b ∈ Finset.range B.length, U.e ((n + 1) * S.length + b) k •
              xpow R (ev n (L.getD (B.getD b 0) [])))
    {G F : CVec R} (hF : ∀ r, r < U.rows → F.e r = ∑ k ∈ Finset.range L.length, U.e r k * G.e k) :
    combo n L G.e = ∑ i : Fin (n + 1), combo n S (fun s => F.e (i.val * S.length + s)) * g i
          + ∑ b ∈ Finset.range B.length, F.e ((n + 1) * S.length + b) •
              xpow R (ev n (L.getD (B.getD b 0) [])) := by
  have e1 : combo n L G.e = ∑ k ∈ Finset.range L.length, G.e k •
      (∑ i : Fin (n + 1), combo n S (fun s => U.e (i.val * S.length + s) k) * g i
          + ∑ b ∈ Finset.range B.length, U.e ((n + 1) * S.length + b) k •
              xpow R (ev n (L.getD (B.getD b 0) []))) :=
    Finset.sum_congr rfl (fun k hk => by rw [hdec k (Finset.mem_range.1 hk)])
  rw [e1]
  simp only [smul_add, Finset.sum_add_distrib, Finset.smul_sum]
  congr 1
  · rw [Finset.sum_comm]
    refine Finset.sum_congr rfl (fun i _ => ?_)
    simp only [← smul_mul_assoc]
    rw [← Finset.sum_mul]
    congr 1
    simp only [combo, Finset.smul_sum, smul_smul]
    rw [Finset.sum_comm]
    refine Finset.sum_congr rfl (fun s hs => ?_)
    have hlt := rowMajor_lt i.isLt (Finset.mem_range.1 hs)
    rw [hF _ (by rw [hr]; omega), Finset.sum_smul]
    exact Finset.sum_congr rfl (fun k _ => by rw [mul_comm])
  · rw [Finset.sum_comm]
    refine Finset.sum_congr rfl (fun b hb => ?_)
    have := Finset.mem_range.1 hb
    rw [hF _ (by rw [hr]; omega), Finset.sum_smul]
    exact Finset.sum_congr rfl (fun k _ => by rw [smul_smul, mul_comm])

theorem look_basis {basis : List IVec} (hn : basis.Nodup) {t : IVec} (ht : t ∈ basis) :
    basis.idxOf t < basis.length ∧ basis.getD (basis.idxOf t) [] = t ∧
      look (buildDict basis) t = .ok (basis.idxOf t) := by
  have h1 := List.idxOf_lt_length_iff.2 ht
  have h2 : basis[basis.idxOf t] = t := List.getElem_idxOf h1
  refine ⟨h1, by rw [getD_getElem _ _ _ h1, h2], ?_⟩
  have := find?_buildDict_of_nodup basis hn _ h1
  rw [h2] at this
  rw [look, this]

theorem ndCokernel_ok {solve : Solver R} {N : ND R} (hN : NDOk solve N) (u : IVec) {listT : List IVec}
    {B : List Nat} (hB : ∀ b ∈ B, b < listT.length) (hm : ∀ b ∈ B, listT.getD b [] ∈ N.ndBasis) {off : Nat}
    {F : CVec R} (hF : off + B.length ≤ F.len) {k : IVec} {bd : Nat} (hk : KeyOK N.n bd k) (hbd : bd ≤ N.n)
    {col : Nat} (hc : col < N.ndBasis.length) {res : MonMap (CMat R)} (hres : RES N.n N.ndBasis.length res) :
    ∃ res', ndCokernel N listT B off k F col res = .ok res' ∧ RES N.n N.ndBasis.length res' ∧
      ∀ c', cval N.n u N.ndBasis c' res' = cval N.n u N.ndBasis c' res + if c' = col then
        ((ndMon N.n u k : Int) : R) • ∑ b ∈ Finset.range B.length, F.e (off + b) •
          xpow R (ev N.n (listT.getD (B.getD b 0) [])) else 0 := by
  unfold ndCokernel
  refine forRange_inv (fun j' (res' : MonMap (CMat R)) => RES N.n N.ndBasis.length res' ∧
      ∀ c', cval N.n u N.ndBasis c' res' = cval N.n u N.ndBasis c' res + if c' = col then
        ((ndMon N.n u k : Int) : R) • ∑ b ∈ Finset.range j', F.e (off + b) •
          xpow R (ev N.n (listT.getD (B.getD b 0) [])) else 0) ⟨hres, fun c' => by simp⟩ ?_
  rintro j r1 hj ⟨h1, h2⟩
  have hbm : B.getD j 0 ∈ B := by rw [getD_getElem _ _ _ hj]; exact List.getElem_mem hj
  have hbl := hB _ hbm
  obtain ⟨i1, i2, i3⟩ := look_basis hN.nodup (hm _ hbm)
  rw [aget_of_lt _ _ hj, Res.bind_ok, ← getD_getElem B 0 j hj, aget_of_lt _ _ hbl, Res.bind_ok,
    ← getD_getElem listT [] _ hbl, hN.dict, i3, Res.bind_ok, CVec.at, if_pos (by omega), Res.bind_ok]
  obtain ⟨r2, e2, g1, g2⟩ := matAdd_ok u h1 (hk.mono (by omega)) (r := N.ndBasis.idxOf (listT.getD (B.getD j 0) []))
    (c := col) (fun h => by have := hk.deg; omega) i1 hc (F.e (off + j))
  refine ⟨r2, e2, g1, fun c' => ?_⟩
  rw [g2, h2, add_assoc]
  congr 1
  by_cases hcc : c' = col
  · rw [if_pos hcc, if_pos hcc, if_pos hcc, Finset.sum_range_succ, smul_add, smul_smul, i2]
  · rw [if_neg hcc, if_neg hcc, if_neg hcc, add_zero]

theorem ndConst_ok {solve : Solver R} {N : ND R} (hN : NDOk solve N) (u : IVec) {k : Nat} {bd len : Nat}
    (hlen : 0 < len) (hbd : bd ≤ N.n + 1) {H : MonMap (CVec R)} (hH : HOK N.n len bd H)
    {col : Nat} (hc : col < N.ndBasis.length) {res : MonMap (CMat R)} (hres : RES N.n N.ndBasis.length res) :
    ∃ res', ndConst N k col H res = .ok res' ∧ RES N.n N.ndBasis.length res' ∧
      ∀ c', cval N.n u N.ndBasis c' res' = cval N.n u N.ndBasis c' res + if k = 0 ∧ c' = col then
        msum (fun key G => (((ndMon N.n u key : Int) : R) * G.e 0) •
          xpow R (ev N.n (List.replicate (N.n + 1) 0))) H else 0 := by
  unfold ndConst
  by_cases hk : k = 0
  · rw [if_pos hk]
    obtain ⟨res', e, p1, v1⟩ := foldlM_acc (A := Nat → MvPolynomial (Fin (N.n + 1)) R)
      (f := fun (res : MonMap (CMat R)) (e : IVec × CVec R) => do
        let x ← e.2.at 0
        matAdd N.ndBasis.length res e.1 0 col x) (l := H)
      (fun r => RES N.n N.ndBasis.length r) (fun r c' => cval N.n u N.ndBasis c' r)
      (fun e c' => if c' = col then (((ndMon N.n u e.1 : Int) : R) * e.2.e 0) •
          xpow R (ev N.n (List.replicate (N.n + 1) 0)) else 0) (by
        intro r e he hr
        obtain ⟨k1, k2⟩ := hH.entry e he
        obtain ⟨r2, e2, g1, g2⟩ := matAdd_ok u hr (k1.mono hbd) (r := 0) (c := col) (fun _ => rfl) hN.head.1 hc (e.2.e 0)
        refine ⟨r2, ?_, g1, ?_⟩
        · rw [CVec.at, if_pos (by omega), Res.bind_ok]; exact e2
        · funext c'
          rw [g2, hN.head.2]; rfl) res hres
    refine ⟨res', e, p1, fun c' => ?_⟩
    have := congrFun v1 c'
    have hap : ∀ l : List (Nat → MvPolynomial (Fin (N.n + 1)) R), l.sum c' = (l.map (fun g => g c')).sum := by
      intro l
      induction l with
      | nil => rfl
      | cons x l ih => rw [List.sum_cons, Pi.add_apply, ih, List.map_cons, List.sum_cons]
    rw [this, Pi.add_apply, hap, List.map_map]
    congr 1
    by_cases hcc : c' = col
    · rw [if_pos ⟨hk, hcc⟩, msum]
      congr 1
      exact List.map_congr_left (fun e _ => by simp [hcc])
    · rw [if_neg (fun h => hcc h.2)]
      apply List.sum_eq_zero
      intro x hx
      obtain ⟨e, -, rfl⟩ := List.mem_map.1 hx
      simp [hcc]
  · rw [if_neg hk]
    exact ⟨res, rfl, hres, fun c' => by rw [if_neg (fun h => hk h.1), add_zero]⟩

/-- What `get_solve_ND((k+1) d)` returns. -/
structure LevelOK (N : ND R) (k : Nat) (listS listT : List IVec) (BU : List Nat × CMat R) : Prop where
  tabS : IsTable N.n ((k : Int) * N.d) listS
  tabT : IsTable N.n (((k : Int) + 1) * N.d) listT
  eS : N.list ((k : Int) * N.d) = .ok listS
  eT : N.list (((k : Int) + 1) * N.d) = .ok listT
  rows : BU.2.rows = (N.n + 1) * listS.length + BU.1.length
  cols : BU.2.cols = listT.length
  lt : ∀ b ∈ BU.1, b < listT.length
  mem : k + 1 ≤ N.n → ∀ b ∈ BU.1, listT.getD b [] ∈ N.ndBasis
  dec : ∀ c, c < listT.length → xpow R (ev N.n (listT.getD c []))
        = ∑ i : Fin (N.n + 1), combo N.n listS (fun s => BU.2.e (i.val * listS.length + s) c)
              * xd i (DRpoly N.toDR)
          + ∑ b ∈ Finset.range BU.1.length, BU.2.e ((N.n + 1) * listS.length + b) c •
              xpow R (ev N.n (listT.getD (BU.1.getD b 0) []))

theorem level_ok {solve : Solver R} (hsolve : SolverOK solve) {N : ND R} (hN : NDOk solve N) {k : Nat}
    (hk : k ≤ N.n) : ∃ listS listT BU, solveND solve N.toDR (((k : Int) + 1) * N.d) = .ok BU ∧
      LevelOK N k listS listT BU := by
  have h0 : (0 : Int) ≤ (k : Int) * N.d := by positivity
  have h1 : (k : Int) * N.d ≤ N.n * N.d := by
    apply mul_le_mul_of_nonneg_right <;> omega
  obtain ⟨L, S, B, U, hL, hS, eL, eS, e, hr, hc, -, hlt, hdec⟩ := solveND_ok hsolve hN.dr (((k : Int) + 1) * N.d)
    (by linarith) (by linarith)
  have h2 : ((k : Int) + 1) * N.d - N.d = k * N.d := by ring
  rw [h2] at hS eS
  refine ⟨S, L, (B, U), e, hS, hL, eS, eL, hr, hc, hlt, fun hk' => ?_, hdec⟩
  have := hN.block (k + 1) hk' B U L
  push_cast at this
  exact this e eL

variable {W : Type} [AddCommGroup W] [Module R W]

theorem combo_mul_eq {n : Nat} (S : List IVec) (F : Nat → R) (g : Fin (n + 1) → MvPolynomial (Fin (n + 1)) R) :
    ∑ i : Fin (n + 1), combo n S (fun s => F (i.val * S.length + s)) * g i =
      ∑ i : Fin (n + 1), ∑ s ∈ Finset.range S.length,
        F (i.val * S.length + s) • (xpow R (ev n (S.getD s [])) * g i) := by
  refine Finset.sum_congr rfl (fun i _ => ?_)
  rw [combo, Finset.sum_mul]
  exact Finset.sum_congr rfl (fun s _ => by rw [smul_mul_assoc])

theorem ndEntry_ok {solve : Solver R} {N : ND R} (hN : NDOk solve N) {u : IVec}
    {Ψ : MvPolynomial (Fin (N.n + 1)) R →ₗ[R] W} (hΨ : TorRel N.d (DRpoly N.toDR) (ev N.n u) Ψ)
    {k : Nat} {listS listT : List IVec} {BU : List Nat × CMat R} (hl : LevelOK N k listS listT BU) (hk : k + 1 ≤ N.n)
    {b : Nat} (hb : b ≤ N.n) {col : Nat} (hc : col < N.ndBasis.length)
    {st : MonMap (CVec R) × MonMap (CMat R)} (h1 : HOK N.n listS.length (b + 1) st.1)
    (h2 : RES N.n N.ndBasis.length st.2) {e : IVec × CVec R} (hk' : KeyOK N.n b e.1) (he : e.2.len = listT.length) :
    ∃ st', ndEntry N BU listS listT k col st e = .ok st' ∧
      (HOK N.n listS.length (b + 1) st'.1 ∧ RES N.n N.ndBasis.length st'.2 ∧
        ∀ c', c' ≠ col → cval N.n u N.ndBasis c' st'.2 = cval N.n u N.ndBasis c' st.2) ∧
      Ψ (hval N.n u listS st'.1 + cval N.n u N.ndBasis col st'.2) =
        Ψ (hval N.n u listS st.1 + cval N.n u N.ndBasis col st.2)
          + Ψ (((ndMon N.n u e.1 : Int) : R) • combo N.n listT e.2.e) := by
  obtain ⟨F, eF, lF, vF⟩ := mulVec_ok BU.2 e.2 (by rw [hl.cols, he])
  obtain ⟨H', eH, H1, H2⟩ := ndScatter_ok u h1 hk' (cnt := listS.length)
    (tgt := fun s => .ok (s, listS.getD s [])) (t := fun s => listS.getD s []) (c := fun s => s)
    (fun s hs => ⟨rfl, hs, rfl⟩) (F := F) (by rw [lF, hl.rows]; omega)
  obtain ⟨r', er, r1, r2⟩ := ndCokernel_ok hN u hl.lt (hl.mem hk) (off := (N.n + 1) * listS.length)
    (F := F) (by rw [lF, hl.rows]) hk' hb hc h2
  refine ⟨(H', r'), ?_, ⟨H1, r1, fun c' hc' => by rw [r2, if_neg hc', add_zero]⟩, ?_⟩
  · rw [ndEntry, eF, Res.bind_ok, eH, Res.bind_ok, if_pos hk, er]; rfl
  · rw [hl.cols] at vF
    have hd := decomp_vec hl.rows hl.dec vF
    rw [H2, r2, if_pos rfl, map_smul, hd, map_add Ψ (∑ i : Fin (N.n + 1), _), combo_mul_eq,
      scatter_rel hΨ (k := k) (fun s hs => hl.tabS.tuple hs)]
    simp only [map_add, map_smul, smul_add]
    abel

/-- The polynomial of a map over the one monomial of degree 0. -/
theorem hval_zero {n : Nat} (u : IVec) {L : List IVec} (hL : IsTable n 0 L) (H : MonMap (CVec R)) :
    0 < L.length ∧ hval n u L H = msum (fun key G => (((ndMon n u key : Int) : R) * G.e 0) •
          xpow R (ev n (List.replicate (n + 1) 0))) H := by
  have h0 : IsTuple (n + 1) 0 (List.replicate (n + 1) 0) :=
    ⟨by simp, by intro x hx; rw [List.mem_replicate] at hx; omega, by simp [deg]⟩
  have hL' : L = [List.replicate (n + 1) 0] := by
    refine hL.eq ⟨by simp, fun t => ⟨fun h => by rw [List.mem_singleton.1 h]; exact h0, fun h => ?_⟩⟩
    rw [List.mem_singleton, List.eq_replicate_iff]
    refine ⟨h.1, fun x hx => ?_⟩
    have hs : t.sum = 0 := h.2.2
    have := h.2.1
    have hle : x ≤ t.sum := List.single_le_sum this x hx
    have := this x hx
    omega
  subst hL'
  refine ⟨by simp, ?_⟩
  rw [hval]
  congr 1
  funext key G
  simp [combo, smul_smul]

theorem ndLoop_ok {solve : Solver R} (hsolve : SolverOK solve) {N : ND R} (hN : NDOk solve N) {u : IVec}
    {Ψ : MvPolynomial (Fin (N.n + 1)) R →ₗ[R] W} (hΨ : TorRel N.d (DRpoly N.toDR) (ev N.n u) Ψ)
    {solves : List (List Nat × CMat R)} (hs : ∀ k, k < N.n → ∀ BU,
      solveND solve N.toDR (((k : Int) + 1) * N.d) = .ok BU → aget solves k = .ok BU)
    {col : Nat} (hc : col < N.ndBasis.length) : ∀ (k b : Nat), b + k ≤ N.n + 1 → k ≤ N.n →
    ∀ {listT : List IVec}, IsTable N.n ((k : Int) * N.d) listT → ∀ {H : MonMap (CVec R)},
    HOK N.n listT.length b H → ∀ {res : MonMap (CMat R)}, RES N.n N.ndBasis.length res →
    ∃ res', ndLoop N solves col k H res = .ok res' ∧ RES N.n N.ndBasis.length res' ∧
      (∀ c', c' ≠ col → cval N.n u N.ndBasis c' res' = cval N.n u N.ndBasis c' res) ∧
      Ψ (cval N.n u N.ndBasis col res') = Ψ (cval N.n u N.ndBasis col res) +
        if k = 0 then 0 else Ψ (hval N.n u listT H) := by
  intro k
  induction k with
  | zero =>
    intro b _ _ listT _ H _ res hres
    exact ⟨res, rfl, hres, fun _ _ => rfl, by simp⟩
  | succ k ih =>
    intro b hb hk listT hT H hH res hres
    obtain ⟨listS, listT', BU, eBU, hl⟩ := level_ok hsolve hN (k := k) (by omega)
    have : listT = listT' := by
      refine hT.eq ?_
      have := hl.tabT
      push_cast
      exact this
    subst this
    obtain ⟨st, est, ⟨q1, q2, q3⟩, qv⟩ := foldlM_acc (f := ndEntry N BU listS listT k col)
      (l := H) (fun st => HOK N.n listS.length (b + 1) st.1 ∧ RES N.n N.ndBasis.length st.2 ∧
        ∀ c', c' ≠ col → cval N.n u N.ndBasis c' st.2 = cval N.n u N.ndBasis c' res)
      (fun st => Ψ (hval N.n u listS st.1 + cval N.n u N.ndBasis col st.2))
      (fun e => Ψ (((ndMon N.n u e.1 : Int) : R) • combo N.n listT e.2.e)) (by
        rintro st e he ⟨h1, h2, h3⟩
        obtain ⟨k1, k2⟩ := hH.entry e he
        obtain ⟨st', g1, ⟨g2, g3, g4⟩, g5⟩ := ndEntry_ok hN hΨ hl hk (b := b) (by omega) hc h1 h2 k1 k2
        exact ⟨st', g1, ⟨g2, g3, fun c' hc' => by rw [g4 c' hc', h3 c' hc']⟩, g5⟩)
      ([], res) ⟨MapOK.nil _ _, hres, fun _ _ => rfl⟩
    have hv : Ψ (hval N.n u listS st.1 + cval N.n u N.ndBasis col st.2)
        = Ψ (cval N.n u N.ndBasis col res) + Ψ (hval N.n u listT H) := by
      rw [qv]
      congr 1
      · simp [hval, msum]
      · rw [hval, msum, map_list_sum, List.map_map]; rfl
    have h0 : 0 < listS.length := by
      by_cases h0 : listS.length = 0
      · exfalso
        have : ∃ t, IsTuple (N.n + 1) ((k : Int) * N.d) t := by
          have h := (mem_comps N.n (k * N.d) ((comps N.n (k * N.d)).head (comps_ne_nil _ _))).1 (List.head_mem _)
          push_cast at h
          exact ⟨_, h⟩
        obtain ⟨t, ht⟩ := this
        have := (hl.tabS.2 t).2 ht
        rw [List.length_eq_zero_iff.1 h0] at this
        cases this
      · omega
    obtain ⟨r1, er, s1, s2⟩ := ndConst_ok hN u (k := k) h0 (by omega) q1 hc q2
    have hpre : ndLoop N solves col (k + 1) H res = ndLoop N solves col k st.1 r1 := by
      rw [ndLoop, hs k (by omega) BU eBU, Res.bind_ok, hl.eS, Res.bind_ok, hl.eT, Res.bind_ok, est, Res.bind_ok,
        er, Res.bind_ok]
    obtain ⟨r2, er2, t1, t2, t3⟩ := ih (b + 1) (by omega) (by omega) hl.tabS q1 s1
    refine ⟨r2, by rw [hpre, er2], t1, fun c' hc' => ?_, ?_⟩
    · rw [t2 c' hc', s2, if_neg (fun h => hc' h.2), add_zero, q3 c' hc']
    · rw [t3, s2, if_neg (Nat.succ_ne_zero k), ← hv]
      by_cases hk0 : k = 0
      · subst hk0
        have hz := hl.tabS
        rw [Nat.cast_zero, zero_mul] at hz
        rw [if_pos ⟨rfl, rfl⟩, if_pos rfl, add_zero, (hval_zero u hz st.1).2, map_add, map_add, add_comm (Ψ _)]
      · rw [if_neg (fun h => hk0 h.1), if_neg hk0, add_zero, map_add, add_comm (Ψ _)]

end

end Verif
