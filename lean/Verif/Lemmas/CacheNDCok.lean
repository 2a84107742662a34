import Verif.Lemmas.CacheND
import Verif.Lemmas.NDTop

/-! `compute_inclusion_matrix_ND` computes all levels at once; the values are those of the levels alone. -/

namespace Verif

open Spec

variable {q : Nat} {solve : Solver (ZMod q)} {N : ND (ZMod q)}

theorem check_pos {b : Bool} (h : b = true) : check b = .ok () := by rw [h]; rfl

theorem check_neg {b : Bool} (h : b = false) : check b = .error .assertFail := by rw [h]; rfl

theorem forRange_congr {σ : Type} {f g : Nat → σ → Res σ} : ∀ (n : Nat) (s : σ),
    (∀ i s, i < n → f i s = g i s) → forRange n s f = forRange n s g
  | 0, _, _ => rfl
  | n + 1, s, h => by
    rw [forRange, forRange, forRange_congr n s (fun i s hi => h i s (by omega))]
    congr 1
    funext s'
    exact h n s' (by omega)

theorem forRange_first_error {σ : Type} {f : Nat → σ → Res σ} {s : σ} {e : Fail} (h : f 0 s = .error e) :
    ∀ n, 0 < n → forRange n s f = .error e
  | 1, _ => by rw [forRange, forRange]; exact h
  | n + 2, _ => by rw [forRange, forRange_first_error h (n + 1) (by omega)]; rfl

theorem mapM_error_head {α β : Type} {f : α → Res β} {a : α} {l : List α} {e : Fail} (h : f a = .error e) :
    (a :: l).mapM f = .error e := by
  rw [List.mapM_cons, h]; rfl

theorem inclMatND_shape (u : IVec) (l : Nat) : inclMatND solve N u l = (do
    check (u.all (fun x => decide (0 < x)))
    check (decide (sumVec u = N.d))
    check (decide (l < N.n))
    let BU ← solveND solve N.toDR ((l : Int) * N.d)
    inclNDWith N u l BU) := rfl

/-- When every level is computed, so are all together. -/
theorem inclsND_ok {u : IVec} (hpos : u.all (fun x => decide (0 < x)) = true) (hsum : sumVec u = N.d)
    (h : ∀ l, l < N.n → ∃ M, inclMatND solve N u l = .ok M) :
    ∃ Ms, inclsND solve N u = .ok Ms ∧ Ms.length = N.n ∧ ∀ l, l < N.n → aget Ms l = inclMatND solve N u l := by
  classical
  obtain ⟨g, hg⟩ : ∃ g : Nat → CMat (ZMod q), ∀ l, l < N.n → inclMatND solve N u l = .ok (g l) :=
    ⟨fun l => if hl : l < N.n then (h l hl).choose else CMat.mk' 0 0 (fun _ _ => 0), fun l hl => by
      simp only [dif_pos hl]; exact (h l hl).choose_spec⟩
  refine ⟨(List.range N.n).map g, ?_, by simp, fun l hl => ?_⟩
  · refine mapM_eq_ok _ g _ (fun l hl => ?_)
    have hl := List.mem_range.1 hl
    have := hg l hl
    rw [inclMatND_shape, hpos, hsum, decide_eq_true rfl, decide_eq_true hl] at this
    simpa using this
  · rw [hg l hl, aget_of_lt _ _ (by simpa using hl)]
    simp

/-- The vectors must have the right length. -/
theorem inclMatND_length (hsolve : SolverOK solve) (hD : DROk N.toDR)
    (hblk : NDBlockOK solve N.toDR 0 (ndBlock solve N.toDR 0)) {u : IVec} {M : CMat (ZMod q)}
    (h : inclMatND solve N u 0 = .ok M) : u.length = N.n + 1 := by
  have hd := hD.hd
  obtain ⟨L, B, U, hL, eL, eU, -, hlt⟩ := solveND_shape hsolve hD (((0 : Nat) : Int) * N.d) (by simp) (by simp only [Nat.cast_zero, zero_mul]; positivity)
  have hB : 0 < B.length := by
    have h1 := hblk.count
    rw [hblk.eq B U L eU eL, List.length_map, Nat.zero_mul, hilbertND_zero _ (by omega)] at h1
    omega
  rw [inclMatND, Res.bind_eq_ok] at h
  obtain ⟨_, -, h⟩ := h
  rw [Res.bind_eq_ok] at h
  obtain ⟨_, -, h⟩ := h
  rw [Res.bind_eq_ok] at h
  obtain ⟨_, -, h⟩ := h
  rw [eU, Res.bind_ok, eL, Res.bind_ok, Res.bind_eq_ok] at h
  obtain ⟨G, -, h⟩ := h
  rw [Res.bind_eq_ok] at h
  obtain ⟨dG, -, h⟩ := h
  by_contra hlen
  have hb : B[0] < L.length := hlt _ (List.getElem_mem hB)
  have ht := hL.tuple hb
  have hadd : addVec (L.getD B[0] []) (u.map (· - 1)) = .error .assertFail := by
    rw [addVec, ht.1, check_neg (by simp; omega)]
    rfl
  have hf := forRange_first_error (f := fun j (M : CMat (ZMod q)) => do
    let b ← aget B j
    let t ← aget L b
    let w ← addVec t (u.map (· - 1))
    let row ← look dG w
    M.put row j 1) (s := CMat.mk' G.length B.length (fun _ _ => (0 : ZMod q))) (e := .assertFail) (by
      rw [aget_of_lt _ _ hB, Res.bind_ok, aget_of_lt _ _ hb, Res.bind_ok, ← getD_getElem _ [] _ hb, hadd]; rfl)
      B.length hB
  rw [hf] at h
  cases h

theorem cokernels_shape (u : IVec) (incl : IVec → Nat → Res (CMat (ZMod q))) :
    (do
      let st ← forRange N.n ((CMat.mk' N.basis.length N.ndBasis.length (fun _ _ => 0), 0) : CMat (ZMod q) × Nat)
        (fun l st => do
          let A ← finalMatJ solve N.toDR (l + 1)
          let B ← incl u l
          let tmp ← A.mul B
          let M ← putBlock st.1 tmp st.2
          pure (M, st.2 + tmp.cols))
      let topJ ← solveJ solve N.toDR N.topLevel
      let BU ← solveND solve N.toDR ((N.d : Int) * N.n)
      let listF ← N.list ((N.d : Int) * N.n - 2 * N.n)
      let listL ← N.list ((N.d : Int) * N.n)
      let listH ← N.list ((N.d : Int) * N.n - (N.n + 1))
      let dictH ← N.dict ((N.d : Int) * N.n - (N.n + 1))
      let dictW ← N.dict N.topLevel
      let st ← forRange BU.1.length st (fun j st => do
        let b ← aget BU.1 j
        let mon ← aget listL b
        let H ← topColWith N topJ.2 listF listH dictH dictW u mon
        let M ← finalMatJ solve N.toDR N.n
        let col ← M.mulVec H
        let M ← forRange col.len st.1 (fun i M => M.put i st.2 (col.e i))
        pure (M, st.2 + 1))
      pure st.1 : Res (CMat (ZMod q))) = (do
      let st ← forRange N.n ((CMat.mk' N.basis.length N.ndBasis.length (fun _ _ => 0), 0) : CMat (ZMod q) × Nat)
        (fun l st => do
          let A ← finalMatJ solve N.toDR (l + 1)
          let B ← incl u l
          let tmp ← A.mul B
          let M ← putBlock st.1 tmp st.2
          pure (M, st.2 + tmp.cols))
      let topJ ← solveJ solve N.toDR N.topLevel
      let BU ← solveND solve N.toDR ((N.d : Int) * N.n)
      let listF ← N.list ((N.d : Int) * N.n - 2 * N.n)
      let listL ← N.list ((N.d : Int) * N.n)
      let listH ← N.list ((N.d : Int) * N.n - (N.n + 1))
      let dictH ← N.dict ((N.d : Int) * N.n - (N.n + 1))
      let dictW ← N.dict N.topLevel
      let st ← forRange BU.1.length st (fun j st => do
        let b ← aget BU.1 j
        let mon ← aget listL b
        let col ← ndTopCol solve N topJ.2 listF listH dictH dictW u mon
        let M ← forRange col.len st.1 (fun i M => M.put i st.2 (col.e i))
        pure (M, st.2 + 1))
      pure st.1 : Res (CMat (ZMod q))) := by
  simp only [ndTopCol, topColWith, bind_assoc]

/-- The levels of the inclusion matrices, as far as the loop over them gets. -/
theorem getCokND_eq (hsolve : SolverOK solve) (hD : DROk N.toDR)
    (hblk : ∀ i, i < N.n + 1 → NDBlockOK solve N.toDR i (ndBlock solve N.toDR i)) (u : IVec) :
    getCokND solve N u = cokernelsToBasis solve N u := by
  have hshape := cokernels_shape (solve := solve) (N := N) u (inclMatND solve N)
  rw [getCokND, cokernelsToBasis, ← hshape, compCokND, cokLoops]
  simp only [bind_assoc]
  by_cases hpos : u.all (fun x => decide (0 < x)) = true
  swap
  · rw [check_neg (by simpa using hpos)]; rfl
  by_cases hsum : sumVec u = N.d
  swap
  · rw [check_pos hpos, Res.bind_ok, Res.bind_ok, check_neg (by simpa using hsum)]; rfl
  rw [check_pos hpos, Res.bind_ok, Res.bind_ok, check_pos (by simpa using hsum), Res.bind_ok, Res.bind_ok]
  congr 1
  by_cases hlen : u.length = N.n + 1
  · have hu : IsTuple (N.n + 1) N.d u := by
      refine ⟨hlen, fun x hx => ?_, (sumVec_eq_sum u).symm.trans hsum⟩
      have := List.all_eq_true.1 hpos x hx
      simp at this
      omega
    have hpos' : ∀ x ∈ u, 0 < x := fun x hx => by simpa using List.all_eq_true.1 hpos x hx
    obtain ⟨Ms, e, -, hMs⟩ := inclsND_ok (solve := solve) hpos hsum (fun l hl => by
      obtain ⟨_, M, _, _, h, _⟩ := inclMatND_ok hsolve hD hu hpos' hl (hblk l (by omega))
      exact ⟨M, h⟩)
    refine forRange_congr _ _ (fun l s hl => ?_)
    congr 1
    funext A
    have : getInclND solve N u l = inclMatND solve N u l := by
      rw [getInclND, check_pos hpos, Res.bind_ok, check_pos (by simpa using hsum), Res.bind_ok,
        check_pos (by simpa using hl), Res.bind_ok, e, Res.bind_ok, hMs l hl]
    rw [this]
  · rcases Nat.eq_zero_or_pos N.n with hn | hn
    · rw [hn]; rfl
    · have herr : ∃ e, inclMatND solve N u 0 = .error e := by
        cases h : inclMatND solve N u 0 with
        | error e => exact ⟨e, rfl⟩
        | ok M => exact absurd (inclMatND_length hsolve hD (hblk 0 (by omega)) h) hlen
      obtain ⟨e, he⟩ := herr
      have he' : getInclND solve N u 0 = .error e := by
        rw [inclMatND_shape, check_pos hpos, Res.bind_ok, check_pos (by simpa using hsum), Res.bind_ok,
          check_pos (by simpa using hn), Res.bind_ok] at he
        rw [getInclND, check_pos hpos, Res.bind_ok, check_pos (by simpa using hsum), Res.bind_ok,
          check_pos (by simpa using hn), Res.bind_ok, inclsND]
        obtain ⟨k, hk⟩ : ∃ k, N.n = k + 1 := ⟨N.n - 1, by omega⟩
        rw [hk, List.range_succ_eq_map, mapM_error_head (f := fun l : Nat => do
          let BU ← solveND solve N.toDR ((l : Int) * N.d)
          inclNDWith N u l BU) he]; rfl
      cases hA : finalMatJ solve N.toDR (0 + 1) with
      | error e2 =>
        rw [forRange_first_error (e := e2) (by simp only; rw [hA]; rfl) _ hn,
          forRange_first_error (e := e2) (by simp only; rw [hA]; rfl) _ hn]
      | ok A =>
        rw [forRange_first_error (e := e) (by simp only; rw [hA, Res.bind_ok, he']; rfl) _ hn,
          forRange_first_error (e := e) (by simp only; rw [hA, Res.bind_ok, he]; rfl) _ hn]

end Verif
