import Verif.Model.FrobND
import Verif.Lemmas.FrobLoop
import Verif.Lemmas.FrobFun
import Verif.Props.NDBatch

/-! The single reductions over `ZZ` of the non-degenerate object, and the reductions of one term of the
Frobenius functions. -/

namespace Verif

open Spec MvPolynomial

/-! ### Single reductions over `ZZ` -/

section

variable {q : Nat}

theorem redMatND_ne [Nontrivial (ZMod q)] {solve : Solver (ZMod q)} (hsolve : SolverOK solve) {N : ND (ZMod q)}
    (hN : NDOk solve N) (hn : N.n ≤ 61) {v : IVec} (hv : IsTuple (N.n + 1) N.d v) :
    redMatND solve N v ≠ .ok [] := by
  intro h
  apply redMatNDPoly_ne hsolve hN hn hv
  rw [redMatNDPoly, h, Res.bind_ok]
  rfl

variable [NeZero q]

theorem getReductionMatrixNDZ_ok {solve : Solver (ZMod q)} (hsolve : SolverOK solve) {N : ND (ZMod q)}
    (hN : NDOk solve N) {u v : IVec} (hv : IsTuple (N.n + 1) N.d v) {m : Int} (hu : u.sum = m * N.d) :
    ∃ gZ g, getReductionMatrixNDZ solve N u v = .ok (CMat.mk' N.ndBasis.length N.ndBasis.length gZ) ∧
      getReductionMatrixND solve N u v = .ok (CMat.mk' N.ndBasis.length N.ndBasis.length g) ∧
      ∀ r c, r < N.ndBasis.length → c < N.ndBasis.length → ((gZ r c : Int) : ZMod q) = g r c := by
  have hd := hN.dr.hd
  obtain ⟨res, e, hres, -⟩ := redMatND_ok hsolve hN hv
  have hall : ∀ t ∈ res, t.2.rows = N.ndBasis.length ∧ t.2.cols = N.ndBasis.length := fun t ht =>
    ⟨(hres.entry t ht).2.1, (hres.entry t ht).2.2.1⟩
  have key : ∀ (l : MonMap (CMat (ZMod q))) (hZ : Nat → Nat → Int) (h : Nat → Nat → ZMod q),
      (∀ t ∈ l, t.2.rows = N.ndBasis.length ∧ t.2.cols = N.ndBasis.length) →
      (∀ r c, r < N.ndBasis.length → c < N.ndBasis.length → ((hZ r c : Int) : ZMod q) = h r c) →
      ∃ gZ : Nat → Nat → Int, (l.map (fun e => (e.1, e.2.map liftZ))).foldlM (fun (M : CMat Int) e =>
        if e.2.rows = M.rows ∧ e.2.cols = M.cols then
          .ok (CMat.mk' M.rows M.cols (fun i j => M.e i j + (ndMon N.n u e.1 % (q : Int)) * e.2.e i j))
        else (.error .abort : Res (CMat Int))) (CMat.mk' N.ndBasis.length N.ndBasis.length hZ) =
      Except.ok (CMat.mk' N.ndBasis.length N.ndBasis.length gZ) ∧
      ∀ r c, r < N.ndBasis.length → c < N.ndBasis.length → ((gZ r c : Int) : ZMod q) = h r c + redSum N.n u l r c := by
    intro l
    induction l with
    | nil => intro hZ h _ hh; exact ⟨hZ, rfl, fun r c hr hc => by rw [hh r c hr hc]; simp [redSum, msum]⟩
    | cons t l ih =>
      intro hZ h hl hh
      obtain ⟨t1, t2⟩ := hl t (by simp)
      obtain ⟨gZ, a1, a2⟩ := ih (fun r c => hZ r c + (ndMon N.n u t.1 % (q : Int)) * liftZ (t.2.e r c))
        (fun r c => h r c + ((ndMon N.n u t.1 : Int) : ZMod q) * t.2.e r c) (fun t ht => hl t (List.mem_cons_of_mem _ ht))
        (fun r c hr hc => by
          push_cast
          rw [hh r c hr hc, liftZ_cast])
      refine ⟨gZ, ?_, fun r c hr hc => ?_⟩
      · rw [List.map_cons, List.foldlM_cons, if_pos (show (t.2.map liftZ).rows = (CMat.mk' N.ndBasis.length N.ndBasis.length hZ).rows ∧
          (t.2.map liftZ).cols = (CMat.mk' N.ndBasis.length N.ndBasis.length hZ).cols from ⟨t1, t2⟩), Res.bind_ok, ← a1]
        congr 1
        refine CMat.mk'_congr (fun r c hr hc => ?_)
        have hr' : r < N.ndBasis.length := hr
        have hc' : c < N.ndBasis.length := hc
        rw [CMat.mk'_e _ hr' hc', map_lift_e (by omega) (by omega)]
      · rw [a2 r c hr hc]
        simp only [redSum, msum_cons]
        ring
  obtain ⟨gZ, a1, a2⟩ := key res (fun _ _ => 0) (fun _ _ => 0) hall (fun _ _ _ _ => by simp)
  refine ⟨gZ, redSum N.n u res, ?_, getReductionMatrixND_eq hd hv.2.2 hu e hres, fun r c hr hc => by
    rw [a2 r c hr hc, zero_add]⟩
  rw [getReductionMatrixNDZ, checkND_ok hd hv.2.2 hu, Res.bind_ok, redMatNDZ, e, Res.bind_ok, Res.bind_ok]
  exact a1

theorem reduceVectorNDZ_ok [Nontrivial (ZMod q)] {solve : Solver (ZMod q)} (hsolve : SolverOK solve) {N : ND (ZMod q)}
    (hN : NDOk solve N) (hn : N.n ≤ 61) {u v : IVec} (hv : IsTuple (N.n + 1) N.d v) {m : Int} (hu : u.sum = m * N.d)
    {Z : CVec Int} {G : CVec (ZMod q)} (hG : G.len = N.ndBasis.length) (hZ : CongrVec Z G) :
    ∃ HZ H, reduceVectorNDZ solve N u v Z = .ok HZ ∧ reduceVectorND solve N u v G = .ok H ∧ CongrVec HZ H ∧
      H.len = N.ndBasis.length := by
  have hd := hN.dr.hd
  obtain ⟨res, e, hres, -⟩ := redMatND_ok hsolve hN hv
  have hall : ∀ t ∈ res, t.2.rows = N.ndBasis.length ∧ t.2.cols = N.ndBasis.length := fun t ht =>
    ⟨(hres.entry t ht).2.1, (hres.entry t ht).2.2.1⟩
  have hterm : ∀ t : IVec × CMat (ZMod q), t.2.rows = N.ndBasis.length → t.2.cols = N.ndBasis.length →
      ∃ T, ndTermZ N.n u Z (t.1, t.2.map liftZ) = .ok T ∧ T.len = N.ndBasis.length ∧
        ∀ r, r < N.ndBasis.length → ((T.e r : Int) : ZMod q) =
          ∑ k ∈ Finset.range N.ndBasis.length, (((ndMon N.n u t.1 : Int) : ZMod q) * t.2.e r k) * G.e k := by
    intro t h1 h2
    obtain ⟨T, eT, lT, vT⟩ := mulVec_ok (t.2.map liftZ) (CVec.mk' Z.len (fun i => ndMon N.n u t.1 * Z.e i))
      (by show t.2.cols = Z.len; rw [hZ.1, hG, h2])
    refine ⟨T, eT, by rw [lT]; exact h1, fun r hr => ?_⟩
    rw [vT r (by show r < t.2.rows; omega)]
    show ((∑ k ∈ Finset.range t.2.cols, _ : Int) : ZMod q) = _
    rw [h2]
    push_cast
    refine Finset.sum_congr rfl (fun k hk => ?_)
    have hk := Finset.mem_range.1 hk
    rw [map_lift_e (by omega) (by omega), mk'_e_of_lt _ (by rw [hZ.1, hG]; exact hk), liftZ_cast]
    push_cast
    rw [hZ.2 k (by omega)]
    ring
  have key : ∀ (l : MonMap (CMat (ZMod q))) (hZ' : CVec Int) (h : Nat → ZMod q),
      (∀ t ∈ l, t.2.rows = N.ndBasis.length ∧ t.2.cols = N.ndBasis.length) → hZ'.len = N.ndBasis.length →
      (∀ r, r < N.ndBasis.length → ((hZ'.e r : Int) : ZMod q) = h r) →
      ∃ HZ, (l.map (fun e => (e.1, e.2.map liftZ))).foldlM (fun (H : CVec Int) e => do
        let T ← ndTermZ N.n u Z e
        if T.len = H.len then .ok (CVec.mk' H.len (fun i => H.e i + T.e i)) else (.error .abort : Res (CVec Int))) hZ' =
      Except.ok HZ ∧ HZ.len = N.ndBasis.length ∧ ∀ r, r < N.ndBasis.length → ((HZ.e r : Int) : ZMod q) =
        h r + ∑ k ∈ Finset.range N.ndBasis.length, redSum N.n u l r k * G.e k := by
    intro l
    induction l with
    | nil => intro hZ' h _ hl hh; exact ⟨hZ', rfl, hl, fun r hr => by rw [hh r hr]; simp [redSum, msum]⟩
    | cons t l ih =>
      intro hZ' h hl hl' hh
      obtain ⟨t1, t2⟩ := hl t (by simp)
      obtain ⟨T, eT, lT, vT⟩ := hterm t t1 t2
      obtain ⟨HZ, a1, a2, a3⟩ := ih (CVec.mk' hZ'.len (fun i => hZ'.e i + T.e i))
        (fun r => h r + ∑ k ∈ Finset.range N.ndBasis.length, (((ndMon N.n u t.1 : Int) : ZMod q) * t.2.e r k) * G.e k)
        (fun t ht => hl t (List.mem_cons_of_mem _ ht)) hl' (fun r hr => by
          rw [mk'_e_of_lt _ (by omega)]
          push_cast
          rw [hh r hr, vT r hr])
      refine ⟨HZ, ?_, a2, fun r hr => ?_⟩
      · rw [List.map_cons, List.foldlM_cons, eT, Res.bind_ok, if_pos (by rw [lT, hl']), Res.bind_ok, a1]
      · rw [a3 r hr, add_assoc, ← Finset.sum_add_distrib]
        congr 1
        refine Finset.sum_congr rfl (fun k _ => ?_)
        simp only [redSum, msum_cons]
        ring
  rw [reduceVectorNDZ, checkND_ok hd hv.2.2 hu, Res.bind_ok, redMatNDZ, e, Res.bind_ok, Res.bind_ok,
    reduceVectorND_eq hd hv.2.2 hu e hres hG]
  cases res with
  | nil => exact absurd e (redMatND_ne hsolve hN hn hv)
  | cons t l =>
    obtain ⟨t1, t2⟩ := hall t (by simp)
    obtain ⟨T, eT, lT, vT⟩ := hterm t t1 t2
    obtain ⟨HZ, a1, a2, a3⟩ := key l T _ (fun t ht => hall t (List.mem_cons_of_mem _ ht)) lT vT
    refine ⟨HZ, _, ?_, rfl, ⟨a2, fun r hr => ?_⟩, rfl⟩
    · rw [List.map_cons]
      simp only
      rw [eT, Res.bind_ok, a1]
    · have hr' : r < N.ndBasis.length := hr
      rw [a3 r hr', mk'_e_of_lt _ hr', ← Finset.sum_add_distrib]
      refine Finset.sum_congr rfl (fun k _ => ?_)
      simp only [redSum, msum_cons]
      ring

end

end Verif
