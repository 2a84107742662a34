import Verif.Lemmas.NDNonempty
import Verif.Props.FiniteDiff
import Verif.Props.ND

/-!
Property C35: the batched reductions of the non-degenerate object (`dr_nd/dr_nd.cc:524-859, 1106-1212`).
-/

namespace Verif

open Spec

section

variable {R : Type} [CommRing R] [DecidableEq R]

/-- **C35.**  For every non-degenerate object built by the constructor, every direction `v` of degree `d`,
every `u` of degree divisible by `d` (positive or not), every count `k >= 0` and every vector `G` of length
`d^n`, `reduce_vector_ND_poly(u, v, k, G)` returns what `k` calls of `reduce_vector_ND` return, at
`u+(k-1)v`, ..., `u`; for `k = 0` it returns `G`. -/
theorem C35_batched {solve : Solver R} {p n d : Nat} {f : MonMap R} {N : ND R}
    (hC : ConstructedND solve p f n d N) (hn : 1 ≤ n) (u v : IVec) (hu : u.length = n + 1) (m : Int)
    (hm : u.sum = m * d) (hv : IsTuple (n + 1) d v) (k : Nat) (G : CVec R) (hG : G.len = d ^ n) :
    (∃ H, reduceVectorNDPoly solve N u v k G = .ok H ∧ H.len = d ^ n ∧ (k = 0 → H = G)) ∧
    reduceVectorNDPoly solve N u v k G = singleSteps (fun w G => reduceVectorND solve N w v G) u v k G := by
  obtain ⟨rfl, rfl, hI⟩ := hC.init
  have hN := hI.nd hn
  have hd := hN.dr.hd
  have hdim : 0 < N.ndBasis.length := by rw [hI.count]; exact Nat.pow_pos (by omega)
  obtain ⟨E, e1, e2, e3, e4⟩ := ndPoly_ok hC.solver hN (n_le_of_size hd hC.size) hdim hu hv hm
  have hg : ∀ r c, r < N.ndBasis.length → c < N.ndBasis.length → r ≠ 0 → pcoef N.n u E (N.n + 1) r c = 0 :=
    fun r c _ _ hr => pcoef_top u e2 hr c
  have hloop : ∀ k (G : CVec R), G.len = N.ndBasis.length →
      ∃ H, ndPolyLoop id N.n (fun i => CMat.mk' N.ndBasis.length N.ndBasis.length (pcoef N.n u E i)) k G = .ok H ∧
        H.len = N.ndBasis.length ∧ (k = 0 → H = G) ∧
        singleSteps (fun w G => reduceVectorND solve N w v G) u v k G = .ok H := by
    intro k
    induction k with
    | zero => intro G hG; exact ⟨G, rfl, hG, fun _ => rfl, rfl⟩
    | succ k ih =>
      intro G hG
      obtain ⟨H, h1, h2, -, h4⟩ := ih (CVec.mk' N.ndBasis.length (fun r => ∑ c ∈ Finset.range N.ndBasis.length,
          (∑ i ∈ Finset.range (N.n + 2), (k : R) ^ i * pcoef N.n u E i r c) * G.e c)) rfl
      refine ⟨H, ?_, h2, by omega, ?_⟩
      · rw [ndPolyLoop, ndPolyStep_eq id hdim hg (fun i _ => rfl) k hG, Res.bind_ok]; exact h1
      · rw [singleSteps, e4 k G hG, Res.bind_ok]; exact h4
  obtain ⟨H, h1, h2, h3, h4⟩ := hloop k G (by rw [hG, hI.count])
  have h5 : reduceVectorNDPoly solve N u v k G = .ok H := by
    rw [reduceVectorNDPoly, checkND_ok hd hv.2.2 hm, Res.bind_ok, e1, Res.bind_ok, e3, Res.bind_ok,
      if_neg (by omega), Int.toNat_natCast]
    exact h1
  exact ⟨⟨H, h5, by rw [h2, hI.count], h3⟩, by rw [h5, h4]⟩

/-- **C35 (class).**  The batched reduction keeps the cohomology class, over any number of steps. -/
theorem C35_batched_class {solve : Solver R} {p n d : Nat} {f : MonMap R} {N : ND R}
    (hC : ConstructedND solve p f n d N) (hn : 1 ≤ n) (u v : IVec) (hu : u.length = n + 1)
    (hpos : ∀ x ∈ u, 0 < x) (m : Nat) (hm : u.sum = m * d) (hv : IsTuple (n + 1) d v) (k : Nat) (G : CVec R)
    (hG : G.len = d ^ n) :
    ∃ H, reduceVectorNDPoly solve N u v k G = .ok H ∧ H.len = d ^ n ∧
      Cohomologous (toPoly (n + 1) f) d (ndForm n d N.ndBasis (fun i => ev n u i + k * ev n v i) G.e)
        (ndForm n d N.ndBasis (ev n u) H.e) := by
  have hlen : u.length = v.length := by rw [hu, hv.1]
  rw [(C35_batched hC hn u v hu m hm hv k G hG).2]
  induction k generalizing G with
  | zero =>
    refine ⟨G, rfl, hG, ?_⟩
    have : (fun i => ev n u i + ((0 : Nat) : Int) * ev n v i) = ev n u := by funext i; simp
    rw [this, Cohomologous, sub_self]
    exact Submodule.zero_mem _
  | succ k ih =>
    have hl : (List.zipWith (fun a b => a + (k : Int) * b) u v).length = n + 1 := by
      rw [List.length_zipWith, hu, hv.1, min_self]
    have hpos' : ∀ x ∈ List.zipWith (fun a b => a + (k : Int) * b) u v, 0 < x := by
      intro x hx
      obtain ⟨i, hi, rfl⟩ := List.getElem_of_mem hx
      rw [List.getElem_zipWith]
      have h1 := hpos _ (List.getElem_mem (by rw [hl] at hi; omega : i < u.length))
      have h2 := hv.2.1 _ (List.getElem_mem (by rw [hl] at hi; rw [hv.1]; omega : i < v.length))
      have := mul_nonneg (Int.natCast_nonneg k) h2
      omega
    have hs : (List.zipWith (fun a b => a + (k : Int) * b) u v).sum = ((m + k : Nat) : Int) * d := by
      rw [sum_axpy hu hv.1, hm, show v.sum = d from hv.2.2]; push_cast; ring
    obtain ⟨M, -, -, -, hstep⟩ := C34_step_keeps_class hC hn _ v hl hpos' (m + k) hs hv
    obtain ⟨G', a1, -, a3, a4⟩ := hstep G hG
    obtain ⟨H, b1, b2, b3⟩ := ih G' a3
    refine ⟨H, by rw [singleSteps, a1, Res.bind_ok, b1], b2, ?_⟩
    rw [ev_axpy hlen] at a4
    have e2 : (fun i => ev n u i + (k : Int) * ev n v i) + ev n v = fun i => ev n u i + ((k + 1 : Nat) : Int) * ev n v i := by
      funext i; simp only [Pi.add_apply]; push_cast; ring
    rw [e2] at a4
    rw [Cohomologous] at *
    have := Submodule.add_mem _ a4 b3
    rwa [sub_add_sub_cancel] at this

end

section

variable {q : Nat} [NeZero q]

/-- **C35 (over ZZ).**  Over `ZZ/q` with `q > 1`, the version over `ZZ` returns a vector with the residues of the
version over `ZZ_p`, entries in `[0, q)` after at least one step. -/
theorem C35_ZZ {solve : Solver (ZMod q)} {p n d : Nat} {f : MonMap (ZMod q)} {N : ND (ZMod q)}
    (hC : ConstructedND solve p f n d N) (hn : 1 ≤ n) (hq : 1 < q) (u v : IVec) (hu : u.length = n + 1) (m : Int)
    (hm : u.sum = m * d) (hv : IsTuple (n + 1) d v) (k : Nat)
    (Z : CVec Int) (G : CVec (ZMod q)) (hG : G.len = d ^ n) (hZ : CongrVec Z G) :
    ∃ HZ H, reduceVectorNDPolyZ solve N u v k Z = .ok HZ ∧ reduceVectorNDPoly solve N u v k G = .ok H ∧
      H.len = d ^ n ∧ CongrVec HZ H ∧ ((1 ≤ k ∨ Reduced q Z) → Reduced q HZ) ∧ (k = 0 → HZ = Z) := by
  obtain ⟨rfl, rfl, hI⟩ := hC.init
  haveI : Fact (1 < q) := ⟨hq⟩
  have hN := hI.nd hn
  have hd := hN.dr.hd
  have hdim : 0 < N.ndBasis.length := by rw [hI.count]; exact Nat.pow_pos (by omega)
  have h61 := n_le_of_size hd hC.size
  obtain ⟨E, e1, e2, e3, -⟩ := ndPoly_ok hC.solver hN h61 hdim hu hv hm
  obtain ⟨E', gZ, f1, f2, f3, f4, f5, f6⟩ := getNDPolyZ_ok hC.solver hN h61 hdim hu hv hm (redMatNDPoly_ne hC.solver hN h61 hv)
  rw [e1] at f1
  obtain rfl := Except.ok.inj f1
  obtain ⟨HZ, H, a1, a2, a3, a4, a5, a6⟩ := ndPolyLoop_congr (n := N.n) hdim (fun r c _ _ hr => f4 r c hr)
    (fun r c _ _ hr => pcoef_top u e2 hr c) (fun i r c _ hr hc => f6 i r c hr hc)
    (PZ := fun i => CMat.mk' N.ndBasis.length N.ndBasis.length (gZ i)) (fun i _ => rfl) (fun i _ => rfl) k Z G hZ
    (by rw [hG, hI.count])
  refine ⟨HZ, H, ?_, ?_, by rw [a4, hI.count], a3, a5, a6⟩
  · rw [reduceVectorNDPolyZ, f3, Res.bind_ok, if_neg (by omega), Int.toNat_natCast]
    exact a1
  · rw [reduceVectorNDPoly, checkND_ok hd hv.2.2 hm, Res.bind_ok, e1, Res.bind_ok, e3, Res.bind_ok,
      if_neg (by omega), Int.toNat_natCast]
    exact a2

omit [NeZero q] in
/-- **C35 (no empty table).**  For every direction `v` of degree `d` some reduction matrix is not zero, so
`compute_reduction_matrix_ND_poly_ZZ` stores an entry for `v` and the iterator it returns is not `end()`. -/
theorem C35_ZZ_nonempty {solve : Solver (ZMod q)} {p n d : Nat} {f : MonMap (ZMod q)} {N : ND (ZMod q)}
    (hC : ConstructedND solve p f n d N) (hn : 1 ≤ n) (hq : 1 < q) (v : IVec) (hv : IsTuple (n + 1) d v) :
    ∃ E, redMatNDPolyZ solve N v = .ok E ∧ E ≠ [] := by
  obtain ⟨rfl, rfl, hI⟩ := hC.init
  haveI : Fact (1 < q) := ⟨hq⟩
  have hN := hI.nd hn
  have hd := hN.dr.hd
  have h61 := n_le_of_size hd hC.size
  have hne := redMatNDPoly_ne hC.solver hN h61 hv
  obtain ⟨res, e, hres, -⟩ := redMatND_ok hC.solver hN hv
  obtain ⟨E, e1, -⟩ := redMatNDPoly_ok h61 hN.head.1 hv.1 e hres
  have hE : E ≠ [] := by rintro rfl; exact hne e1
  refine ⟨E.map (fun e => (e.1, e.2.map liftZ)), ?_, by simpa using hE⟩
  rw [redMatNDPolyZ, e1, Res.bind_ok, if_neg (by simpa [List.isEmpty_iff] using hE)]

/-- What the flint version is compared with. -/
theorem flint_poly {solve : Solver (ZMod q)} {p n d : Nat} {f : MonMap (ZMod q)} {N : ND (ZMod q)}
    (hC : ConstructedND solve p f n d N) (hn : 1 ≤ n) (hq : 1 < q) {u v : IVec} (hu : u.length = n + 1) {m : Int}
    (hm : u.sum = m * d) (hv : IsTuple (n + 1) d v) :
    0 < d ^ n ∧ ∃ gZ : Nat → Nat → Nat → Int, getNDPolyZ solve N u v = .ok (fun i => CMat.mk' (d ^ n) (d ^ n) (gZ i)) ∧
      (∀ r c, r ≠ 0 → gZ (n + 1) r c = 0) ∧ (∀ i r c, 0 ≤ gZ i r c ∧ gZ i r c < q) := by
  obtain ⟨rfl, rfl, hI⟩ := hC.init
  haveI : Fact (1 < q) := ⟨hq⟩
  have hN := hI.nd hn
  have hd := hN.dr.hd
  have hdim : 0 < N.d ^ N.n := Nat.pow_pos (by omega)
  have h61 := n_le_of_size hd hC.size
  obtain ⟨E', gZ, f1, f2, f3, f4, f5, f6⟩ := getNDPolyZ_ok hC.solver hN h61 (by rw [hI.count]; exact hdim) hu hv hm
    (redMatNDPoly_ne hC.solver hN h61 hv)
  rw [hI.count] at f3
  exact ⟨hdim, gZ, f3, f4, f5⟩

/-- **C35 (flint, more than one limb).**  For `q >= 2^64` the flint version, on the matrices of
`get_ND_poly_flint(u, v)`, returns what the version over `ZZ` returns. -/
theorem C35_flint_multi {solve : Solver (ZMod q)} {p n d : Nat} {f : MonMap (ZMod q)} {N : ND (ZMod q)}
    (hC : ConstructedND solve p f n d N) (hn : 1 ≤ n) (hq : 2 ^ 64 ≤ q) (u v : IVec) (hu : u.length = n + 1) (m : Int)
    (hm : u.sum = m * d) (hv : IsTuple (n + 1) d v) (k : Nat)
    (Z : CVec Int) (G : CVec (ZMod q)) (hG : G.len = d ^ n) (hZ : CongrVec Z G) :
    ∃ poly HZ H, getNDPolyZ solve N u v = .ok poly ∧ reduceVectorNDPolyFlint q n poly k Z = .ok HZ ∧
      reduceVectorNDPoly solve N u v k G = .ok H ∧ H.len = d ^ n ∧ CongrVec HZ H ∧
      ((1 ≤ k ∨ Reduced q Z) → Reduced q HZ) := by
  obtain ⟨HZ, H, h1, h2, h3, h4, h5, -⟩ := C35_ZZ hC hn (by omega) u v hu m hm hv k Z G hG hZ
  obtain ⟨-, gZ, e, -⟩ := flint_poly hC hn (by omega) hu hm hv
  refine ⟨_, HZ, H, e, ?_, h2, h3, h4, h5⟩
  rw [reduceVectorNDPolyZ, e, Res.bind_ok, if_neg (by omega)] at h1
  obtain ⟨rfl, -, -⟩ := hC.init
  rw [reduceVectorNDPolyFlint, if_pos hq]
  exact h1

/-- The loop over the integers as the product of the matrices. -/
theorem ndPolyLoop_evalRun {n dim : Nat} (hdim : 0 < dim) {g : Nat → Nat → Nat → ZMod q}
    (hg : ∀ r c, r < dim → c < dim → r ≠ 0 → g (n + 1) r c = 0) {P : Nat → CMat (ZMod q)}
    (hP : ∀ i, i ≤ n + 1 → P i = CMat.mk' dim dim (g i)) (k : Nat) {G : CVec (ZMod q)} (hG : G.len = dim) :
    ndPolyLoop id n P k G = .ok (evalRun dim (n + 2) g 0 k G) := by
  induction k generalizing G with
  | zero => rfl
  | succ k ih =>
    rw [ndPolyLoop, ndPolyStep_eq id hdim hg hP k hG, Res.bind_ok, evalRun, evalApply, Nat.zero_add]
    exact ih rfl

/-- The end of both one-limb branches. -/
theorem flint_end {solve : Solver (ZMod q)} {p n d : Nat} {f : MonMap (ZMod q)} {N : ND (ZMod q)}
    (hC : ConstructedND solve p f n d N) (hn : 1 ≤ n) (hq : 1 < q) {u v : IVec} (hu : u.length = n + 1) {m : Int}
    (hm : u.sum = m * d) (hv : IsTuple (n + 1) d v) (k : Nat)
    {Z : CVec Int} {G : CVec (ZMod q)} (hG : G.len = d ^ n) (hZ : CongrVec Z G)
    {gZ : Nat → Nat → Nat → Int} (e : getNDPolyZ solve N u v = .ok (fun i => CMat.mk' (d ^ n) (d ^ n) (gZ i)))
    (htop : ∀ r c, r ≠ 0 → gZ (n + 1) r c = 0) (hdim : 0 < d ^ n) :
    ∃ H, reduceVectorNDPoly solve N u v k G = .ok H ∧ H.len = d ^ n ∧
      CongrVec (fromNmod (evalRun (d ^ n) (n + 2) (fun i r c => ((gZ i r c : Int) : ZMod q)) 0 k
        (CVec.mk' (d ^ n) (fun i => ((Z.e i : Int) : ZMod q))))) H := by
  obtain ⟨HZ, H, h1, h2, h3, h4, -, -⟩ := C35_ZZ hC hn hq u v hu m hm hv k Z G hG hZ
  refine ⟨H, h2, h3, ?_⟩
  rw [reduceVectorNDPolyZ, e, Res.bind_ok, if_neg (by omega), Int.toNat_natCast] at h1
  obtain ⟨rfl, -, -⟩ := hC.init
  obtain ⟨HZ', H', a1, a2, a3, a4, -, -⟩ := ndPolyLoop_congr (q := q) (n := N.n) hdim (fun r c _ _ hr => htop r c hr)
    (g := fun i r c => ((gZ i r c : Int) : ZMod q)) (fun r c _ _ hr => by rw [htop r c hr, Int.cast_zero])
    (fun i r c _ _ _ => rfl) (PZ := fun i => CMat.mk' (d ^ N.n) (d ^ N.n) (gZ i)) (fun i _ => rfl) (fun i _ => rfl) k Z
    (CVec.mk' (d ^ N.n) (fun i => ((Z.e i : Int) : ZMod q)))
    ⟨by rw [hZ.1, hG]; rfl, fun i (hi : i < d ^ N.n) => by rw [mk'_e_of_lt _ hi]⟩ rfl
  rw [h1] at a1
  obtain rfl := Except.ok.inj a1
  rw [ndPolyLoop_evalRun hdim (fun r c _ _ hr => by rw [htop r c hr, Int.cast_zero]) (fun i _ => rfl) k rfl] at a2
  obtain rfl := Except.ok.inj a2
  have hc := (fromNmod_congr (H := evalRun (d ^ N.n) (N.n + 2) (fun i r c => ((gZ i r c : Int) : ZMod q)) 0 k
        (CVec.mk' (d ^ N.n) (fun i => ((Z.e i : Int) : ZMod q))))).1
  refine ⟨by rw [hc.1, a4, h3], fun i hi => ?_⟩
  rw [hc.2 i (by rw [a4]; rw [h3] at hi; exact hi), ← a3.2 i (by rw [a4]; rw [h3] at hi; exact hi), h4.2 i hi]

/-- **C35 (flint, one limb, short).**  For `q < 2^64`, `k <= n + 1` and `k <= q` the flint version returns the residues
of the version over `ZZ_p`, entries in `[0, q)`. -/
theorem C35_flint_short {solve : Solver (ZMod q)} {p n d : Nat} {f : MonMap (ZMod q)} {N : ND (ZMod q)}
    (hC : ConstructedND solve p f n d N) (hn : 1 ≤ n) (hq : 1 < q) (hq64 : q < 2 ^ 64) (u v : IVec)
    (hu : u.length = n + 1) (m : Int) (hm : u.sum = m * d) (hv : IsTuple (n + 1) d v) (k : Nat) (hk : k ≤ n + 1)
    (hkq : k ≤ q) (Z : CVec Int) (hZr : Reduced q Z) (G : CVec (ZMod q)) (hG : G.len = d ^ n) (hZ : CongrVec Z G) :
    ∃ poly HZ H, getNDPolyZ solve N u v = .ok poly ∧ reduceVectorNDPolyFlint q n poly k Z = .ok HZ ∧
      reduceVectorNDPoly solve N u v k G = .ok H ∧ H.len = d ^ n ∧ CongrVec HZ H ∧ Reduced q HZ := by
  obtain ⟨hdim, gZ, e, htop, hred⟩ := flint_poly hC hn hq hu hm hv
  obtain ⟨H, h1, h2, h3⟩ := flint_end hC hn hq hu hm hv k hG hZ e htop hdim
  refine ⟨_, _, H, e, ?_, h1, h2, h3, fromNmod_congr.2⟩
  have hlen : Z.len = d ^ n := by rw [hZ.1, hG]
  have hconv := nmodMats_ok (q := q) (d := d ^ n) (Ms := fun i => CMat.mk' (d ^ n) (d ^ n) (gZ i)) (n + 2)
    (fun i _ => ⟨le_refl _, le_refl _, fun r c hr hc => by rw [CMat.mk'_e _ hr hc]; exact hred i r c⟩)
  rw [reduceVectorNDPolyFlint, if_neg (by omega), if_neg (by omega), show (CMat.mk' (d ^ n) (d ^ n) (gZ 0)).cols = d ^ n from rfl]
  simp only
  rw [nmodVec_ok (by omega) (fun i hi => hZr i (by omega)), Res.bind_ok, hconv, Res.bind_ok, if_neg (by omega), Int.toNat_natCast,
    ndPolyLoop_evalRun (g := fun i r c => ((gZ i r c : Int) : ZMod q)) hdim
      (fun r c _ _ hr => by rw [htop r c hr, Int.cast_zero]) (fun i hi => ?_) k rfl, Res.bind_ok]
  rw [if_pos (by omega)]
  exact CMat.mk'_congr (fun r c hr hc => by rw [CMat.mk'_e _ hr hc])

/-- **C35 (flint, one limb, long; partial).**  For `q < 2^64` and `n + 1 < k <= q` the flint version goes through the
finite differences.  It returns the residues of the version over `ZZ_p` when the matrices for this `u` and `v`
are not all zero modulo `q` and have nested supports.  Without these conditions it does not: see
`C35_flint_wrong`. -/
theorem C35_flint_long_partial {solve : Solver (ZMod q)} {p n d : Nat} {f : MonMap (ZMod q)} {N : ND (ZMod q)}
    (hC : ConstructedND solve p f n d N) (hn : 1 ≤ n) (hq : 1 < q) (hq64 : q < 2 ^ 64) (u v : IVec)
    (hu : u.length = n + 1) (m : Int) (hm : u.sum = m * d) (hv : IsTuple (n + 1) d v) (k : Nat) (hk : n + 1 < k)
    (hkq : k ≤ q) (Z : CVec Int) (hZr : Reduced q Z) (G : CVec (ZMod q)) (hG : G.len = d ^ n) (hZ : CongrVec Z G)
    (hnz : ∀ poly, getNDPolyZ solve N u v = .ok poly → ∃ i < n + 2, ∃ r < d ^ n, ∃ c < d ^ n, (poly i).e r c ≠ 0)
    (hnest : ∀ poly, getNDPolyZ solve N u v = .ok poly → NestedSupport (d ^ n) (n + 2) poly) :
    ∃ poly HZ H, getNDPolyZ solve N u v = .ok poly ∧ reduceVectorNDPolyFlint q n poly k Z = .ok HZ ∧
      reduceVectorNDPoly solve N u v k G = .ok H ∧ H.len = d ^ n ∧ CongrVec HZ H ∧ Reduced q HZ := by
  obtain ⟨hdim, gZ, e, htop, hred⟩ := flint_poly hC hn hq hu hm hv
  obtain ⟨H, h1, h2, h3⟩ := flint_end hC hn hq hu hm hv k hG hZ e htop hdim
  refine ⟨_, _, H, e, ?_, h1, h2, h3, fromNmod_congr.2⟩
  have hlen : Z.len = d ^ n := by rw [hZ.1, hG]
  rw [reduceVectorNDPolyFlint, if_neg (by omega), if_pos (by omega)]
  obtain ⟨i, hi, r, hr, c, hc, hz⟩ := hnz _ e
  rw [CMat.mk'_e _ hr hc] at hz
  exact finiteDiff_ok (by omega) (fun i _ => rfl) (fun i _ r c _ _ => hred i r c) (by omega) hkq
    ⟨i, hi, r, c, hr, hc, hz⟩ (hnest _ e) hlen (fun i hi => hZr i (by omega))

end

/-! ### The cubic -/

/-- The entries of three `3 × 3` matrices. -/
def entries3 (P : Nat → CMat Int) : List (List (List Int)) :=
  (List.range 3).map (fun i => (List.range 3).map (fun r => (List.range 3).map (fun c => (P i).e r c)))

/-- The matrices of `get_ND_poly_flint(u, v)` for the cubic, from their entries. -/
theorem exCubic_poly {N : ND (ZMod 25)} (hC : ConstructedND exSolve 5 exCubic 1 3 N) {u v : IVec} (hu : u.length = 2)
    {m : Int} (hm : u.sum = m * 3) (hv : IsTuple 2 (3 : Nat) v) {g : Nat → Nat → Nat → Int}
    (h : (do let N ← ND.init exSolve 5 exCubic
             let P ← getNDPolyZ exSolve N u v
             .ok (entries3 P) : Res _) = .ok (entries3 (fun i => CMat.mk' 3 3 (g i)))) :
    ∃ poly, getNDPolyZ exSolve N u v = .ok poly ∧ ∀ i, i < 3 → poly i = CMat.mk' 3 3 (g i) := by
  obtain ⟨-, gZ, e, -, -⟩ := flint_poly (q := 25) hC (le_refl 1) (by norm_num) hu hm hv
  refine ⟨_, e, fun i hi => CMat.mk'_congr (fun r c hr hc => ?_)⟩
  rw [hC.built, Res.bind_ok, e, Res.bind_ok] at h
  have h := Except.ok.inj h
  rw [entries3, entries3, List.map_inj_left] at h
  have h := h i (List.mem_range.2 hi)
  rw [List.map_inj_left] at h
  have h := h r (List.mem_range.2 (by simpa using hr))
  rw [List.map_inj_left] at h
  have h := h c (List.mem_range.2 (by simpa using hc))
  rw [CMat.mk'_e _ hr hc, CMat.mk'_e _ (by simpa using hr) (by simpa using hc)] at h
  exact h

/-- The matrices for `u = (5, 10)`, `v = (2, 1)`: `M_1` has the entry `(1, 2)` only and `M_2` the entry `(0, 1)` only. -/
def exBad (i r c : Nat) : Int := match i, r, c with
  | 0, 1, 2 => 1 | 0, 2, 0 => 1
  | 1, 1, 2 => 17
  | 2, 0, 1 => 14
  | _, _, _ => 0

set_option maxRecDepth 100000 in
/-- **C35 (flint, false in general).**  For the non-degenerate object of the cubic `y^3 + 2 x^3` modulo 25, `u = (5, 10)`,
`v = (2, 1)` and `G` the second unit vector: with `k = 8` the flint version returns the zero vector, while the
version over `ZZ` returns a vector with last entry 10; with `k = 5` the flint version stops at the closing
assertion of the finite differences. -/
theorem C35_flint_wrong :
    ∃ N poly, ConstructedND exSolve 5 exCubic 1 3 N ∧ getNDPolyZ exSolve N [5, 10] [2, 1] = .ok poly ∧
      ∃ G HZ H : CVec Int, G.len = 3 ∧ Reduced 25 G ∧ reduceVectorNDPolyFlint 25 1 poly 8 G = .ok HZ ∧
        reduceVectorNDPolyZ exSolve N [5, 10] [2, 1] 8 G = .ok H ∧ HZ.e 2 = 0 ∧ H.e 2 = 10 ∧
        reduceVectorNDPolyFlint 25 1 poly 5 G = .error .assertFail := by
  obtain ⟨N, hC, -⟩ := exCubic_constructedND
  have hn : N.n = 1 := hC.init.1
  obtain ⟨poly, e, hp⟩ := exCubic_poly hC (u := [5, 10]) (v := [2, 1]) rfl (m := 5) (by decide)
    (by unfold IsTuple NonNeg deg; decide) (g := exBad) (by decide +kernel)
  have h1 : (reduceVectorNDPolyFlint 25 1 (fun i => CMat.mk' 3 3 (exBad i)) 8 (CVec.mk' 3 (fun i => if i = 1 then 1 else 0))).map
      (fun H => H.e 2) = .ok 0 := by decide +kernel
  have h2 : (ndPolyLoop (· % (25 : Int)) 1 (fun i => CMat.mk' 3 3 (exBad i)) 8 (CVec.mk' 3 (fun i => if i = 1 then 1 else 0))).map
      (fun H => H.e 2) = .ok 10 := by decide +kernel
  have h3 : (reduceVectorNDPolyFlint 25 1 (fun i => CMat.mk' 3 3 (exBad i)) 5 (CVec.mk' 3 (fun i => if i = 1 then 1 else 0))).map
      (fun H => H.e 2) = .error .assertFail := by decide +kernel
  rw [← reduceVectorNDPolyFlint_congr (n := 1) hp] at h1 h3
  rw [← ndPolyLoop_poly_congr (n := 1) _ hp] at h2
  cases e1 : reduceVectorNDPolyFlint 25 1 poly 8 (CVec.mk' 3 (fun i => if i = 1 then 1 else 0)) with
  | error x => rw [e1] at h1; cases h1
  | ok HZ =>
    cases e2 : ndPolyLoop (· % (25 : Int)) 1 poly 8 (CVec.mk' 3 (fun i => if i = 1 then 1 else 0)) with
    | error x => rw [e2] at h2; cases h2
    | ok H =>
      cases e3 : reduceVectorNDPolyFlint 25 1 poly 5 (CVec.mk' 3 (fun i => if i = 1 then 1 else 0)) with
      | ok x => rw [e3] at h3; cases h3
      | error x =>
        rw [e1] at h1
        rw [e2] at h2
        rw [e3] at h3
        refine ⟨N, poly, hC, e, CVec.mk' 3 (fun i => if i = 1 then 1 else 0), HZ, H, rfl, ?_, e1, ?_, Except.ok.inj h1,
          Except.ok.inj h2, ?_⟩
        · intro i hi
          have hi' : i < 3 := hi
          rw [mk'_e_of_lt _ hi']
          split <;> omega
        · rw [reduceVectorNDPolyZ, e, Res.bind_ok, if_neg (by omega), hn]
          exact e2
        · rw [e3, Except.error.inj h3]

set_option maxRecDepth 100000 in
/-- Cases for the theorems above: the cubic with `u = (4, 5)`, `v = (2, 1)` (and `u = (-4, 1)` for those that do not
ask for positive entries), whose matrices `exNested` are nested and not zero, `k = 8` and `k = 2`, and what
three of the functions return. -/
example : ∃ N, ConstructedND exSolve 5 exCubic 1 3 N ∧ ([4, 5] : IVec).length = 1 + 1 ∧ (∀ x ∈ ([4, 5] : IVec), 0 < x) ∧
    ([4, 5] : IVec).sum = (3 : Nat) * (3 : Nat) ∧ ([-4, 1] : IVec).sum = (-1) * (3 : Nat) ∧ IsTuple (1 + 1) (3 : Nat) [2, 1] ∧
    (∀ poly, getNDPolyZ exSolve N [4, 5] [2, 1] = .ok poly → ∃ i < 1 + 2, ∃ r < 3 ^ 1, ∃ c < 3 ^ 1, (poly i).e r c ≠ 0) ∧
    (∀ poly, getNDPolyZ exSolve N [4, 5] [2, 1] = .ok poly → NestedSupport (3 ^ 1) (1 + 2) poly) ∧
    (∀ poly, getNDPolyZ exSolve N [4, 5] [2, 1] = .ok poly →
      (reduceVectorNDPolyFlint 25 1 poly 8 (CVec.mk' 3 (fun _ => 1))).map (fun H => (List.range 3).map H.e) = .ok [0, 0, 15]) ∧
    (∀ poly, getNDPolyZ exSolve N [4, 5] [2, 1] = .ok poly →
      (reduceVectorNDPolyFlint 25 1 poly 2 (CVec.mk' 3 (fun _ => 1))).map (fun H => (List.range 3).map H.e) = .ok [5, 5, 2]) := by
  obtain ⟨N, hC, -⟩ := exCubic_constructedND
  obtain ⟨poly, e, hp⟩ := exCubic_poly hC (u := [4, 5]) (v := [2, 1]) rfl (m := 3) (by decide)
    (by unfold IsTuple NonNeg deg; decide) (g := exNested) (by decide +kernel)
  have hpoly : ∀ poly', getNDPolyZ exSolve N [4, 5] [2, 1] = .ok poly' → poly' = poly := fun p h =>
    (Except.ok.inj (e.symm.trans h)).symm
  refine ⟨N, hC, rfl, by decide, by decide, by decide, by unfold IsTuple NonNeg deg; decide, ?_, ?_, ?_, ?_⟩
  · intro p h
    rw [hpoly p h]
    exact ⟨2, by omega, 0, by omega, 1, by omega, by rw [hp 2 (by omega)]; decide⟩
  · intro p h
    rw [hpoly p h]
    intro i hi j hj h1 hji r hr c hc
    rw [hp i hi, hp j hj]
    have hr : r < 3 := hr
    have hc : c < 3 := hc
    interval_cases i <;> interval_cases j <;> first | omega | (interval_cases r <;> interval_cases c <;> decide +kernel)
  · intro p h
    rw [hpoly p h, reduceVectorNDPolyFlint_congr (n := 1) hp]
    decide +kernel
  · intro p h
    rw [hpoly p h, reduceVectorNDPolyFlint_congr (n := 1) hp]
    decide +kernel

set_option maxRecDepth 100000 in
/-- Case for `C35_flint_multi`: the cubic modulo `5^28`, which is larger than `2^64`. -/
example : 2 ^ 64 ≤ 37252902984619140625 ∧ ∃ N, ConstructedND (monoSolver (zmodInv 37252902984619140625)) 5
    ([([0, 3], 1), ([3, 0], 2)] : MonMap (ZMod 37252902984619140625)) 1 3 N := by
  refine ⟨by norm_num, ?_⟩
  obtain ⟨N, hN, -⟩ := isOk_of_bind (g := ND.ndBasis) (x := ND.init (monoSolver (zmodInv 37252902984619140625)) 5
      ([([0, 3], 1), ([3, 0], 2)] : MonMap (ZMod 37252902984619140625)))
    (b := [[0, 0], [1, 2], [2, 1]]) (by decide +kernel)
  refine ⟨N, ⟨monoSolver_ok (zmodInv_ok _), ?_, ?_, choose_small (by decide), hN⟩⟩
  · unfold WFPoly NonNeg LexLt; decide
  · decide

end Verif
