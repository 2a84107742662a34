import Verif.Lemmas.FrobNDStep

/-! The reductions of one term of the Frobenius functions of the non-degenerate object. -/

namespace Verif

open Spec MvPolynomial

theorem axmy_succ' {u v : IVec} (h : v.length = u.length) (p i : Nat) :
    List.zipWith (· - ·) (axmy p i u v) v = axmy p (i + 1) u v := by
  induction u generalizing v with
  | nil => rw [List.length_eq_zero_iff.1 h]; rfl
  | cons x u ih =>
    obtain ⟨y, v, rfl⟩ := List.exists_cons_of_length_eq_add_one h
    rw [axmy_cons, axmy_cons, List.zipWith_cons_cons, ih (by simpa using h)]
    congr 1; push_cast; ring

theorem axmy_self' {u v : IVec} (h : v.length = u.length) (p : Nat) :
    axmy p p u v = mulVec p (List.zipWith (· - ·) u v) := by
  induction u generalizing v with
  | nil => rw [List.length_eq_zero_iff.1 h]; rfl
  | cons x u ih =>
    obtain ⟨y, v, rfl⟩ := List.exists_cons_of_length_eq_add_one h
    have e1 : mulVec (p : Int) (List.zipWith (· - ·) (x :: u) (y :: v)) =
      (p * (x - y)) :: mulVec (p : Int) (List.zipWith (· - ·) u v) := rfl
    rw [axmy_cons, e1, ih (by simpa using h)]
    congr 1; ring

theorem axmy_last (u : IVec) {p : Nat} (hp : 1 ≤ p) : axmy p (p - 1) u u = u := by
  induction u with
  | nil => rfl
  | cons x u ih =>
    rw [axmy_cons, ih, Nat.cast_sub hp]
    congr 1; push_cast; ring

theorem ev_axmy {n : Nat} {u v : IVec} (h : v.length = u.length) (p i : Nat) :
    ev n (axmy p i u v) = fun k => p * ev n u k - i * ev n v k := by
  rw [axmy, ev_sub (by rw [mulVec_length, mulVec_length, h]), ev_mulVec, ev_mulVec]
  rfl

section

variable {R : Type} [CommRing R]

theorem family_mul {n : Nat} {L : List IVec} (hL : ∀ t ∈ L, ∀ i, 0 ≤ ev n t i) {w : Fin (n + 1) → ℤ} (hw : ∀ i, 1 ≤ w i)
    (G : Nat → R) : family n L w G = xpow R (fun i => w i - 1) * combo n L G := by
  rw [combo, Finset.mul_sum, family]
  refine Finset.sum_congr rfl (fun k hk => ?_)
  have hk := Finset.mem_range.1 hk
  rw [mul_smul_comm, xpow_mul (fun i => by have := hw i; omega)
    (hL _ (by rw [getD_getElem _ _ _ hk]; exact List.getElem_mem hk))]
  congr 2
  funext i
  simp only [Pi.add_apply]
  ring

theorem ndBasis_nonneg {solve : Solver R} {N : ND R} (hN : NDOk solve N) : ∀ t ∈ N.ndBasis, ∀ i, 0 ≤ ev N.n t i := by
  intro t ht
  obtain ⟨l, -, h⟩ := hN.deg t ht
  exact ev_nonneg h

variable [DecidableEq R] {solve : Solver R} {N : ND R}

theorem stepND_family (hsolve : SolverOK solve) (hN : NDOk solve N) {u v : IVec} (hul : u.length = N.n + 1)
    (hpos : ∀ i, 1 ≤ ev N.n u i) (hv : IsTuple (N.n + 1) N.d v) {m : Nat} (hu : u.sum = m * N.d)
    {G : CVec R} (hG : G.len = N.ndBasis.length) :
    ∃ M H, getReductionMatrixND solve N u v = .ok M ∧ M.mulVec G = .ok H ∧ reduceVectorND solve N u v G = .ok H ∧
      H.len = N.ndBasis.length ∧
      family N.n N.ndBasis (fun i => ev N.n u i + ev N.n v i) G.e - family N.n N.ndBasis (ev N.n u) H.e
        ∈ Ex (DRpoly N.toDR) N.d := by
  obtain ⟨M, a1, -, -, a2⟩ := stepND_ok hsolve hN hv (m := m) hu
  obtain ⟨H, b1, b2, b3, -⟩ := a2 G hG
  obtain ⟨H', c1, -, c2⟩ := stepND_Ex hsolve hN hul (pos_of_ev hul hpos) hv hu hG
  rw [b1] at c1
  obtain rfl := Except.ok.inj c1
  refine ⟨M, H, a1, b2, b1, b3, ?_⟩
  rw [family_mul (ndBasis_nonneg hN) (fun i => by have := hpos i; have := ev_nonneg hv i; omega), family_mul (ndBasis_nonneg hN) hpos]
  exact c2

theorem batchND_family {p' n d : Nat} {f : MonMap R} (hC : ConstructedND solve p' f n d N) (hn : 1 ≤ n)
    {u v : IVec} (hul : u.length = N.n + 1)
    (hpos : ∀ i, 1 ≤ ev N.n u i) (hv : IsTuple (N.n + 1) N.d v) {m : Nat} (hu : u.sum = m * N.d) (k : Nat)
    {G : CVec R} (hG : G.len = N.ndBasis.length) :
    ∃ H, reduceVectorNDPoly solve N u v k G = .ok H ∧ H.len = N.ndBasis.length ∧
      family N.n N.ndBasis (fun i => ev N.n u i + k * ev N.n v i) G.e - family N.n N.ndBasis (ev N.n u) H.e
        ∈ Ex (DRpoly N.toDR) N.d := by
  obtain ⟨rfl, rfl, hI⟩ := hC.init
  have hN := hI.nd hn
  rw [(C35_batched hC hn u v hul m hu hv k G (by rw [hG, hI.count])).2]
  have hlen : u.length = v.length := by rw [hul, hv.1]
  induction k generalizing G with
  | zero =>
    refine ⟨G, rfl, hG, ?_⟩
    simp only [Nat.cast_zero, zero_mul, add_zero]
    rw [sub_self]; exact Submodule.zero_mem _
  | succ k ih =>
    have e1 := ev_axpy (n := N.n) hlen (k : Int)
    have hlen' : (List.zipWith (fun a b => a + (k : Int) * b) u v).length = N.n + 1 := by
      rw [List.length_zipWith, hul, hv.1, min_self]
    have hv0 := ev_nonneg hv
    have hs : (List.zipWith (fun a b => a + (k : Int) * b) u v).sum = u.sum + k * N.d := by
      rw [← sum_ev hlen', e1, Finset.sum_add_distrib, ← Finset.mul_sum, sum_ev hul, sum_ev_tuple hv]
    obtain ⟨M, G', -, -, a1, a2, a3⟩ := stepND_family hC.solver hN hlen' (fun i => by
        rw [e1]
        have := mul_nonneg (show (0 : Int) ≤ k by omega) (hv0 i)
        have := hpos i
        simp only; omega) hv (m := m + k) (by rw [hs, hu]; push_cast; ring) hG
    obtain ⟨H, b1, b2, b3⟩ := ih a2
    refine ⟨H, by rw [singleSteps, a1, Res.bind_ok, b1], b2, ?_⟩
    rw [e1] at a3
    have e2 : (fun i => ev N.n u i + (k : Int) * ev N.n v i + ev N.n v i) =
        fun i => ev N.n u i + ((k + 1 : Nat) : Int) * ev N.n v i := by
      funext i; push_cast; ring
    rw [e2] at a3
    have := Submodule.add_mem _ a3 b3
    rwa [sub_add_sub_cancel] at this

/-- What the proof uses about the reductions of one term: `p` steps, or `p - 1` steps in the direction of the term itself. -/
def TermNDOK (N : ND R) (p : Nat) (term : Nat → IVec → IVec → CVec R → Res (IVec × CVec R)) : Prop :=
  ∀ (last : Nat) (u v : IVec) (G : CVec R) (e : Nat), u.length = N.n + 1 → IsTuple (N.n + 1) N.d v →
    u.sum = (e : Int) * N.d → 1 ≤ e → last ≤ p → (last = p ∨ last = p - 1 ∧ u = v) →
    (∀ i, 1 ≤ (p : Int) * ev N.n u i - last * ev N.n v i) → G.len = N.ndBasis.length →
    ∃ G', term last u v G = .ok (axmy p last u v, G') ∧ G'.len = N.ndBasis.length ∧
      family N.n N.ndBasis (ev N.n (mulVec p u)) G.e - family N.n N.ndBasis (ev N.n (axmy p last u v)) G'.e
        ∈ Ex (DRpoly N.toDR) N.d

omit [DecidableEq R] in
theorem ndSteps_ok {V : Type} {one : IVec → V → Res V} {p last : Nat} {u v : IVec} (hlen : v.length = u.length)
    (P : Nat → V → Prop)
    (h : ∀ i G, i < last → P i G → ∃ G', one (axmy p (i + 1) u v) G = .ok G' ∧ P (i + 1) G') (cnt : Nat) :
    ∀ i G, i + cnt = last → P i G →
      ∃ G', ndSteps one v cnt (axmy p i u v) G = .ok (axmy p last u v, G') ∧ P last G' := by
  induction cnt with
  | zero => intro i G hi hP; obtain rfl : i = last := by omega
            exact ⟨G, rfl, hP⟩
  | succ cnt ih =>
    intro i G hi hP
    obtain ⟨G1, a1, a2⟩ := h i G (by omega) hP
    obtain ⟨G', b1, b2⟩ := ih (i + 1) G1 (by omega) a2
    refine ⟨G', ?_, b2⟩
    rw [ndSteps, subVec_ok (by rw [axmy_length hlen, hlen]), Res.bind_ok, axmy_succ' hlen, a1, Res.bind_ok, b1]

omit [DecidableEq R] in
/-- The positions passed: all positive, of degree divisible by `d`. -/
theorem axmy_pos {n d p last e : Nat} {u v : IVec} (hul : u.length = n + 1) (hv : IsTuple (n + 1) d v)
    (hus : u.sum = (e : Int) * d) (he : 1 ≤ e) (hlp : last ≤ p)
    (hpos : ∀ i, 1 ≤ (p : Int) * ev n u i - last * ev n v i) {i : Nat} (hi : i ≤ last) :
    (axmy p i u v).length = n + 1 ∧ (∀ k, 1 ≤ ev n (axmy p i u v) k) ∧ (axmy p i u v).sum = ((p * e - i : Nat) : Int) * d := by
  have hlen : v.length = u.length := by rw [hul, hv.1]
  refine ⟨by rw [axmy_length hlen, hul], fun k => ?_, ?_⟩
  · rw [ev_axmy hlen]
    have h1 := hpos k
    have h2 := ev_nonneg hv k
    have h3 : (i : Int) ≤ last := by omega
    simp only
    nlinarith
  · have : i ≤ p * e := le_trans (le_trans hi hlp) (Nat.le_mul_of_pos_right _ he)
    rw [axmy_sum hlen, hus, show v.sum = (d : Int) from hv.2.2, Nat.cast_sub this]
    push_cast; ring

theorem termNDP_ok {p' n d : Nat} {f : MonMap R} (hC : ConstructedND solve p' f n d N) (hn : 1 ≤ n) (p : Nat)
    (batched : Bool) : TermNDOK N p (varNDP solve N p batched).term := by
  intro last u v G e hul hv hus he hlp _ hpos hG
  obtain ⟨h1, h2, hI⟩ := hC.init
  have hN := hI.nd (by omega)
  have hlen : v.length = u.length := by rw [hul, hv.1]
  have hax := fun i (hi : i ≤ last) => axmy_pos hul hv hus he hlp hpos hi
  cases batched with
  | true =>
    obtain ⟨c1, c2, c3⟩ := hax last (le_refl _)
    obtain ⟨H, a1, a2, a3⟩ := batchND_family hC hn c1 c2 hv c3 last hG
    refine ⟨H, ?_, a2, ?_⟩
    · show ndBatched _ _ _ _ _ _ = _
      rw [ndBatched, subVec_ok (by rw [mulVec_length, mulVec_length, hlen]), Res.bind_ok]
      show (reduceVectorNDPoly solve N (axmy p last u v) v last G >>= _) = _
      rw [a1]; rfl
    · have : (fun i => ev N.n (axmy p last u v) i + last * ev N.n v i) = ev N.n (mulVec p u) := by
        rw [ev_axmy hlen, ev_mulVec]; funext i; simp only; ring
      rw [this] at a3
      exact a3
  | false =>
    obtain ⟨G', a1, a2, a3⟩ := ndSteps_ok (one := oneNDP solve N v) (p := p) (last := last) hlen
      (fun i (H : CVec R) => H.len = N.ndBasis.length ∧ family N.n N.ndBasis (ev N.n (mulVec p u)) G.e -
        family N.n N.ndBasis (ev N.n (axmy p i u v)) H.e ∈ Ex (DRpoly N.toDR) N.d)
      (by
        rintro i G1 hi ⟨hG1, hrel⟩
        obtain ⟨c1, c2, c3⟩ := hax (i + 1) (by omega)
        obtain ⟨M, H, b1, b2, -, b3, b4⟩ := stepND_family hC.solver hN c1 c2 hv c3 hG1
        refine ⟨H, by rw [oneNDP, b1, Res.bind_ok, b2], b3, ?_⟩
        have : (fun k => ev N.n (axmy p (i + 1) u v) k + ev N.n v k) = ev N.n (axmy p i u v) := by
          rw [ev_axmy hlen, ev_axmy hlen]; funext k; push_cast; ring
        rw [this] at b4
        have := Submodule.add_mem _ hrel b4
        rwa [sub_add_sub_cancel] at this)
      last 0 G (by omega) ⟨hG, by rw [axmy_zero hlen, sub_self]; exact Submodule.zero_mem _⟩
    rw [axmy_zero hlen] at a1
    exact ⟨G', a1, a2, a3⟩

end

section

variable {q : Nat} [NeZero q]

omit [NeZero q] in
/-- Back from `ZZ` to `ZZ_p`. -/
theorem family_back {n : Nat} {L : List IVec} {w : Fin (n + 1) → ℤ} {Z : CVec Int} {H : CVec (ZMod q)}
    (h : CongrVec Z H) (hl : H.len = L.length) :
    family n L w (CVec.mk' Z.len (fun i => ((Z.e i : Int) : ZMod q))).e = family n L w H.e :=
  family_congr (fun k hk => by
    rw [mk'_e_of_lt _ (by rw [h.1, hl]; exact hk)]
    exact h.2 k (by omega))

theorem congr_lift (G : CVec (ZMod q)) : CongrVec (CVec.mk' G.len (fun i => liftZ (G.e i))) G :=
  ⟨rfl, fun r hr => by rw [mk'_e_of_lt _ hr]; exact liftZ_cast _⟩

theorem reduced_lift (G : CVec (ZMod q)) : Reduced q (CVec.mk' G.len (fun i => liftZ (G.e i))) := by
  intro r hr
  have hr' : r < G.len := hr
  rw [mk'_e_of_lt _ hr', liftZ]
  have := ZMod.val_lt (G.e r)
  omega

variable {solve : Solver (ZMod q)} {N : ND (ZMod q)}

theorem oneNDZ_ok [Nontrivial (ZMod q)] (hsolve : SolverOK solve) (hN : NDOk solve N) (h61 : N.n ≤ 61)
    {u v : IVec} (hv : IsTuple (N.n + 1) N.d v) {m : Int} (hu : u.sum = m * N.d) {Z : CVec Int} {G H : CVec (ZMod q)}
    (hG : G.len = N.ndBasis.length) (hZ : CongrVec Z G) (hH : reduceVectorND solve N u v G = .ok H) (kind : LoopKind) :
    ∃ Z', oneNDZ solve N kind v u Z = .ok Z' ∧ CongrVec Z' H := by
  have hvec : ∃ Z', (do
      let H ← reduceVectorNDZ solve N u v Z
      if H.len < Z.len then .error .ub else pure (CVec.mk' Z.len (fun i => H.e i % (q : Int))) : Res (CVec Int)) = .ok Z' ∧
      CongrVec Z' H := by
    obtain ⟨HZ, H', a1, a2, a3, a4⟩ := reduceVectorNDZ_ok hsolve hN h61 hv hu hG hZ
    rw [hH] at a2
    obtain rfl := Except.ok.inj a2
    have hl : Z.len = HZ.len := by rw [hZ.1, hG, a3.1, a4]
    refine ⟨CVec.mk' Z.len (fun i => HZ.e i % (q : Int)), ?_, by rw [← a3.1, ← hl]; rfl, fun r hr => ?_⟩
    · rw [a1, Res.bind_ok, if_neg (by omega)]; rfl
    · rw [mk'_e_of_lt _ (by rw [hl, a3.1]; exact hr), ZMod.intCast_mod, a3.2 r hr]
  cases kind with
  | poly => exact hvec
  | vec => exact hvec
  | mat =>
    obtain ⟨gZ, g, a1, a2, a3⟩ := getReductionMatrixNDZ_ok hsolve hN hv hu
    obtain ⟨M, b1, -, -, b2⟩ := stepND_ok hsolve hN hv hu
    obtain ⟨H', c1, c2, c3, -⟩ := b2 G hG
    rw [hH] at c1
    obtain rfl := Except.ok.inj c1
    rw [a2] at b1
    obtain rfl := Except.ok.inj b1
    obtain ⟨TZ, d1, d2, d3⟩ := mulVec_ok (CMat.mk' N.ndBasis.length N.ndBasis.length gZ) Z (by
      show N.ndBasis.length = _; rw [hZ.1, hG])
    obtain ⟨T, e1, e2, e3⟩ := mulVec_ok (CMat.mk' N.ndBasis.length N.ndBasis.length g) G (by
      show N.ndBasis.length = _; rw [hG])
    rw [c2] at e1
    obtain rfl := Except.ok.inj e1
    refine ⟨TZ, ?_, by rw [d2, e2]; rfl, fun r hr => ?_⟩
    · show (getReductionMatrixNDZ solve N u v >>= fun M => M.mulVec Z) = _
      rw [a1, Res.bind_ok, d1]
    · have hr' : r < N.ndBasis.length := by omega
      rw [d3 r hr', e3 r hr']
      push_cast
      refine Finset.sum_congr rfl (fun k hk => ?_)
      have hk : k < N.ndBasis.length := Finset.mem_range.1 hk
      rw [CMat.mk'_e _ hr' hk, CMat.mk'_e _ hr' hk, a3 r k hr' hk, hZ.2 k (by omega)]

theorem termNDZ_ok {p' n d : Nat} {f : MonMap (ZMod q)} (hC : ConstructedND solve p' f n d N) (hn : 1 ≤ n)
    (hq : 1 < q) (p : Nat) (kind : LoopKind) : TermNDOK N p (varNDZ solve N p kind).term := by
  intro last u v G e hul hv hus he hlp _ hpos hG
  obtain ⟨h1, h2, hI⟩ := hC.init
  haveI : Fact (1 < q) := ⟨hq⟩
  have hN := hI.nd (by omega)
  have hd := hN.dr.hd
  have h61 := n_le_of_size (by rw [← h1, ← h2]; exact hd) hC.size
  have hlen : v.length = u.length := by rw [hul, hv.1]
  have hax := fun i (hi : i ≤ last) => axmy_pos hul hv hus he hlp hpos hi
  have hcl := hI.count
  by_cases hk : kind = .poly
  · obtain ⟨c1, c2, c3⟩ := hax last (le_refl _)
    obtain ⟨H, a1, a2, a3⟩ := batchND_family hC hn c1 c2 hv c3 last hG
    obtain ⟨HZ, H', b1, b2, -, b3, -⟩ := C35_ZZ hC hn hq (axmy p last u v) v (by rw [← h1]; exact c1) _
      (by rw [← h2]; exact c3) (by rw [← h1, ← h2]; exact hv) last _ G (by rw [hG, hcl, h1, h2]) (congr_lift G)
    rw [a1] at b2
    obtain rfl := Except.ok.inj b2
    refine ⟨CVec.mk' HZ.len (fun i => ((HZ.e i : Int) : ZMod q)), ?_, by rw [← a2, ← b3.1]; rfl, ?_⟩
    · show ((if kind = .poly then ndBatched _ _ _ _ _ _ else _) >>= fun r => pure (r.1, _)) = _
      rw [if_pos hk, ndBatched, subVec_ok (by rw [mulVec_length, mulVec_length, hlen]), Res.bind_ok]
      show ((reduceVectorNDPolyZ solve N (axmy p last u v) v last _ >>= _) >>= _) = _
      rw [b1]; rfl
    · rw [family_back b3 a2]
      have : (fun i => ev N.n (axmy p last u v) i + last * ev N.n v i) = ev N.n (mulVec p u) := by
        rw [ev_axmy hlen, ev_mulVec]; funext i; simp only; ring
      rw [this] at a3
      exact a3
  · obtain ⟨Z', a1, H, a2, a3, a4⟩ := ndSteps_ok (one := oneNDZ solve N kind v) (p := p) (last := last) hlen
      (fun i (Z : CVec Int) => ∃ H : CVec (ZMod q), CongrVec Z H ∧ H.len = N.ndBasis.length ∧
        family N.n N.ndBasis (ev N.n (mulVec p u)) G.e -
        family N.n N.ndBasis (ev N.n (axmy p i u v)) H.e ∈ Ex (DRpoly N.toDR) N.d)
      (by
        rintro i Z1 hi ⟨G1, hZ1, hG1, hrel⟩
        obtain ⟨c1, c2, c3⟩ := hax (i + 1) (by omega)
        obtain ⟨M, H, -, -, b2, b3, b4⟩ := stepND_family hC.solver hN c1 c2 hv c3 hG1
        obtain ⟨Z2, d1, d2⟩ := oneNDZ_ok hC.solver hN (by rw [h1]; exact h61) hv c3 hG1 hZ1 b2 kind
        refine ⟨Z2, d1, H, d2, b3, ?_⟩
        have : (fun k => ev N.n (axmy p (i + 1) u v) k + ev N.n v k) = ev N.n (axmy p i u v) := by
          rw [ev_axmy hlen, ev_axmy hlen]; funext k; push_cast; ring
        rw [this] at b4
        have := Submodule.add_mem _ hrel b4
        rwa [sub_add_sub_cancel] at this)
      last 0 (CVec.mk' G.len (fun i => liftZ (G.e i))) (by omega)
      ⟨G, congr_lift G, hG, by rw [axmy_zero hlen, sub_self]; exact Submodule.zero_mem _⟩
    rw [axmy_zero hlen] at a1
    refine ⟨CVec.mk' Z'.len (fun i => ((Z'.e i : Int) : ZMod q)), ?_, by rw [← a3, ← a2.1]; rfl, ?_⟩
    · show ((if kind = .poly then _ else ndSteps _ _ _ _ _) >>= fun r => pure (r.1, _)) = _
      rw [if_neg hk, a1]; rfl
    · rw [family_back a2 a3]
      exact a4

/-- When the batched reduction of `frob_ND_flint` is known to be right: more than one limb, at most `n + 1` steps,
or matrices the finite differences handle.  These are needed only for the `u` and `v` the function uses: `u = p w` with `w > 0` (all
passes but the last), or `u = v` (the last pass). -/
def FlintBatchOK (q p n d : Nat) (solve : Solver (ZMod q)) (N : ND (ZMod q)) : Prop :=
  2 ^ 64 ≤ q ∨ p ≤ n + 1 ∨ ∀ (u v : IVec) (m : Nat) (poly : Nat → CMat Int), u.length = n + 1 → (∀ x ∈ u, 0 < x) →
    u.sum = m * d → IsTuple (n + 1) d v → ((∃ w : IVec, (∀ x ∈ w, 0 < x) ∧ u = mulVec p w) ∨ u = v) → getNDPolyZ solve N u v = .ok poly →
    (∃ i < n + 2, ∃ r < d ^ n, ∃ c < d ^ n, (poly i).e r c ≠ 0) ∧ NestedSupport (d ^ n) (n + 2) poly

theorem termNDFlint_ok {p' n d : Nat} {f : MonMap (ZMod q)} (hC : ConstructedND solve p' f n d N) (hn : 1 ≤ n)
    (hq : 1 < q) {p : Nat} (hpq : p ≤ q) (hfl : FlintBatchOK q p n d solve N) :
    TermNDOK N p (varNDFlint solve N p).term := by
  intro last u v G e hul hv hus he hlp hlast hpos hG
  obtain ⟨h1, h2, hI⟩ := hC.init
  have hN := hI.nd (by omega)
  have hcl := hI.count
  have hlen : v.length = u.length := by rw [hul, hv.1]
  obtain ⟨c1, c2, c3⟩ := axmy_pos hul hv hus he hlp hpos (le_refl last)
  obtain ⟨H, a1, a2, a3⟩ := batchND_family hC hn c1 c2 hv c3 last hG
  have hbatch : ∃ HZ, batchFlint solve N (axmy p last u v) v last (CVec.mk' G.len (fun i => liftZ (G.e i))) = .ok HZ ∧
      CongrVec HZ H := by
    have w1 : (axmy p last u v).length = n + 1 := by rw [← h1]; exact c1
    have w2 : (axmy p last u v).sum = ((p * e - last : Nat) : Int) * d := by rw [← h2]; exact c3
    have w3 : IsTuple (n + 1) d v := by rw [← h1, ← h2]; exact hv
    have w4 : G.len = d ^ n := by rw [hG, hcl, h1, h2]
    have hform : (∃ w : IVec, (∀ x ∈ w, 0 < x) ∧ axmy p last u v = mulVec p w) ∨ axmy p last u v = v := by
      by_cases hl : last = p
      · subst hl
        refine Or.inl ⟨List.zipWith (· - ·) u v, ?_, axmy_self' hlen _⟩
        have hwl : (List.zipWith (· - ·) u v).length = N.n + 1 := by rw [List.length_zipWith, hlen, hul, min_self]
        refine pos_of_ev (n := N.n) hwl (fun i => ?_)
        have h := hpos i
        rw [ev_sub hlen.symm]
        show 1 ≤ ev N.n u i - ev N.n v i
        have h' : 1 ≤ (last : Int) * (ev N.n u i - ev N.n v i) := by rw [mul_sub]; exact h
        by_contra hc
        have : (last : Int) * (ev N.n u i - ev N.n v i) ≤ 0 := mul_nonpos_of_nonneg_of_nonpos (by omega) (by omega)
        omega
      · obtain ⟨rfl, rfl⟩ := hlast.resolve_left hl
        exact Or.inr (axmy_last _ (by omega))
    have hfin : ∀ poly HZ H', getNDPolyZ solve N (axmy p last u v) v = .ok poly →
        reduceVectorNDPolyFlint q n poly last (CVec.mk' G.len (fun i => liftZ (G.e i))) = .ok HZ →
        reduceVectorNDPoly solve N (axmy p last u v) v last G = .ok H' → CongrVec HZ H' →
        ∃ HZ, batchFlint solve N (axmy p last u v) v last (CVec.mk' G.len (fun i => liftZ (G.e i))) = .ok HZ ∧
          CongrVec HZ H := by
      intro poly HZ H' b1 b2 b3 b4
      rw [a1] at b3
      obtain rfl := Except.ok.inj b3
      exact ⟨HZ, by rw [batchFlint, b1, Res.bind_ok, h1, b2], b4⟩
    by_cases hq64 : 2 ^ 64 ≤ q
    · obtain ⟨poly, HZ, H', b1, b2, b3, -, b4, -⟩ := C35_flint_multi hC hn hq64 _ v w1 _ w2 w3 last _ G w4 (congr_lift G)
      exact hfin poly HZ H' b1 b2 b3 b4
    · by_cases hk : last ≤ n + 1
      · obtain ⟨poly, HZ, H', b1, b2, b3, -, b4, -⟩ := C35_flint_short hC hn hq (by omega) _ v w1 _ w2 w3 last hk (by omega) _
          (reduced_lift G) G w4 (congr_lift G)
        exact hfin poly HZ H' b1 b2 b3 b4
      · have hnest : ∀ poly, getNDPolyZ solve N (axmy p last u v) v = .ok poly →
            (∃ i < n + 2, ∃ r < d ^ n, ∃ c < d ^ n, (poly i).e r c ≠ 0) ∧ NestedSupport (d ^ n) (n + 2) poly := by
          rcases hfl with h | h | h
          · exact absurd h hq64
          · exact absurd (le_trans hlp h) hk
          · exact fun poly hp => h _ v _ poly w1 (pos_of_ev (n := n) w1 (by subst h1; exact c2)) w2 w3 hform hp
        obtain ⟨poly, HZ, H', b1, b2, b3, -, b4, -⟩ := C35_flint_long_partial hC hn hq (by omega) _ v w1 _ w2 w3 last
          (by omega) (by omega) _ (reduced_lift G) G w4 (congr_lift G) (fun poly hp => (hnest poly hp).1)
          (fun poly hp => (hnest poly hp).2)
        exact hfin poly HZ H' b1 b2 b3 b4
  obtain ⟨HZ, b1, b3⟩ := hbatch
  refine ⟨CVec.mk' HZ.len (fun i => ((HZ.e i : Int) : ZMod q)), ?_, by rw [← a2, ← b3.1]; rfl, ?_⟩
  · show (ndBatched _ _ _ _ _ _ >>= fun r => pure (r.1, _)) = _
    rw [ndBatched, subVec_ok (by rw [mulVec_length, mulVec_length, hlen]), Res.bind_ok]
    show ((batchFlint solve N (axmy p last u v) v last _ >>= _) >>= _) = _
    rw [b1]; rfl
  · rw [family_back b3 a2]
    have : (fun i => ev N.n (axmy p last u v) i + last * ev N.n v i) = ev N.n (mulVec p u) := by
      rw [ev_axmy hlen, ev_mulVec]; funext i; simp only; ring
    rw [this] at a3
    exact a3

end

end Verif
