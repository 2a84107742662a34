import Verif.Lemmas.FrobTerm

/-! The reductions of one term keep the class, for every variant of the Frobenius functions. -/

namespace Verif

open Spec MvPolynomial

/-- The reductions of a term: `last` steps from position `tweak(p u)` to `tweak(p u - last v)`. -/
def TermOK {R : Type} [CommRing R] (D : DR R) (p : Nat) (L : List IVec)
    (term : Nat → IVec → IVec → CVec R → Res (IVec × CVec R)) : Prop :=
  ∀ (last : Nat) (u v : IVec) (G : CVec R) (e : Nat), u.length = D.n + 1 → Below u v → v.sum = D.d →
    u.sum = e * D.d → 1 ≤ last → last ≤ p → D.n + last ≤ p * e → G.len = L.length →
    ∃ G', term last u v G = .ok (tweakNat (axmy p last u v) (D.d * D.n - D.n), G') ∧ G'.len = L.length ∧
      family D.n L (ev D.n (tweakNat (mulVec p u) (D.d * D.n - D.n))) G.e
        - family D.n L (ev D.n (tweakNat (axmy p last u v) (D.d * D.n - D.n))) G'.e ∈ Ex (DRpoly D) D.d

theorem axmy_zero {u v : IVec} (h : v.length = u.length) (p : Nat) : axmy p 0 u v = mulVec p u := by
  induction u generalizing v with
  | nil => rw [List.length_eq_zero_iff.1 h]; rfl
  | cons x u ih =>
    obtain ⟨y, v, rfl⟩ := List.exists_cons_of_length_eq_add_one h
    rw [axmy_cons, ih (by simpa using h)]
    simp [mulVec]

theorem Below.tuple {n d : Nat} {u v : IVec} (hu : u.length = n + 1) (hb : Below u v) (hs : v.sum = d) :
    IsTuple (n + 1) d v := by
  have hl : v.length = n + 1 := by rw [hb.length, hu]
  exact tuple_of_ev hl (fun i => (hb.getD i).1) (by rw [sum_ev hl, hs])

section

variable {R : Type} [CommRing R]

theorem step_family {solve : Solver R} {p' n d : Nat} {f : MonMap R} {D : DR R}
    (hC : Constructed solve p' f n d D) {L : List IVec} (hL : IsTable D.n ((D.d : Int) * D.n - D.n) L)
    (hn : 1 ≤ D.n) {w v : IVec} (hw : w.length = D.n + 1) (hw0 : NonNeg w) (hv : IsTuple (D.n + 1) D.d v)
    (hwv : ∀ i, ev D.n w i = 0 ∨ 0 < ev D.n v i) {m : Nat} (hm : D.n ≤ m)
    (hdeg : w.sum = m * D.d - ((D.d : Int) * D.n - D.n)) (G : CVec R) (hG : G.len = L.length) :
    ∃ M H, getReductionMatrixJ solve D w v = .ok M ∧ M.mulVec G = .ok H ∧
      reduceVectorJ solve D w v G = .ok H ∧ H.len = L.length ∧
      family D.n L (ev D.n w + ev D.n v) G.e - family D.n L (ev D.n w) H.e ∈ Ex (DRpoly D) D.d := by
  obtain ⟨-, -, hI⟩ := hC.init
  have hd := hI.ok.hd
  obtain ⟨L', hL', eL, -⟩ := D.list_ok hI.ok ((D.d : Int) * D.n - D.n) (by nlinarith) (by nlinarith)
  obtain rfl := hL.eq hL'
  obtain ⟨M, H, e1, e2, e3, e4, -⟩ := reduce_family hC.solver hI.ok hI.top hw hw0 hv hwv eL m (by omega)
    (by rw [hdeg]; ring) G hG
  exact ⟨M, H, e1, e2, by rw [reduceVectorJ_eq, e1, Res.bind_ok, e2], e3, e4⟩

theorem batch_family {solve : Solver R} {p' n d : Nat} {f : MonMap R} {D : DR R}
    (hC : Constructed solve p' f n d D) {L : List IVec} (hL : IsTable D.n ((D.d : Int) * D.n - D.n) L)
    (hn : 1 ≤ D.n) {w v : IVec} (hw : w.length = D.n + 1) (hw0 : NonNeg w) (hv : IsTuple (D.n + 1) D.d v)
    (hwv : ∀ i, ev D.n w i = 0 ∨ 0 < ev D.n v i) {m : Nat} (hm : D.n ≤ m)
    (hdeg : w.sum = m * D.d - ((D.d : Int) * D.n - D.n)) (k : Nat) (G : CVec R) (hG : G.len = L.length) :
    ∃ H, reduceVectorJPoly solve D w v k G = .ok H ∧ H.len = L.length ∧
      family D.n L (fun i => ev D.n w i + (k : Int) * ev D.n v i) G.e - family D.n L (ev D.n w) H.e
        ∈ Ex (DRpoly D) D.d := by
  obtain ⟨h1, h2, hI⟩ := hC.init
  subst h1 h2
  rw [(C26_batched hC w v hw hv hwv k L hL G hG).2]
  have hlen : w.length = v.length := by rw [hw, hv.1]
  induction k generalizing G with
  | zero =>
    refine ⟨G, rfl, hG, ?_⟩
    simp only [Nat.cast_zero, zero_mul, add_zero]
    rw [sub_self]; exact Submodule.zero_mem _
  | succ k ih =>
    have e1 := ev_axpy (n := D.n) hlen (k : Int)
    have hlen' : (List.zipWith (fun a b => a + (k : Int) * b) w v).length = D.n + 1 := by
      rw [List.length_zipWith, hw, hv.1, min_self]
    have hv0 := ev_nonneg hv
    have hw0' : ∀ i, 0 ≤ ev D.n w i := fun i => nonNeg_getD hw0 i
    have hk0 : (0 : Int) ≤ k := by omega
    have hn1 : NonNeg (List.zipWith (fun a b => a + (k : Int) * b) w v) :=
      nonNeg_of_ev hlen' (fun i => by
        rw [e1]; have := mul_nonneg hk0 (hv0 i); have := hw0' i; simp only; omega)
    have hwv' : ∀ i, ev D.n (List.zipWith (fun a b => a + (k : Int) * b) w v) i = 0 ∨ 0 < ev D.n v i := by
      intro i
      rw [e1]
      rcases hwv i with h | h
      · rcases lt_or_ge 0 (ev D.n v i) with h1 | h1
        · exact Or.inr h1
        · left
          have : ev D.n v i = 0 := le_antisymm h1 (hv0 i)
          simp only [h, this, mul_zero, add_zero]
      · exact Or.inr h
    have hs : (List.zipWith (fun a b => a + (k : Int) * b) w v).sum = w.sum + k * D.d := by
      rw [← sum_ev hlen', e1, Finset.sum_add_distrib, ← Finset.mul_sum, sum_ev hw, sum_ev_tuple hv]
    obtain ⟨M, G', -, -, a1, a2, a3⟩ := step_family hC hL hn hlen' hn1 hv hwv' (show D.n ≤ m + k by omega)
      (by rw [hs, hdeg]; push_cast; ring) G hG
    obtain ⟨H, b1, b2, b3⟩ := ih G' a2
    refine ⟨H, by rw [singleSteps, a1, Res.bind_ok, b1], b2, ?_⟩
    rw [e1] at a3
    have e2 : (fun i => ev D.n w i + (k : Int) * ev D.n v i) + ev D.n v =
        fun i => ev D.n w i + ((k + 1 : Nat) : Int) * ev D.n v i := by
      funext i; simp only [Pi.add_apply]; push_cast; ring
    rw [e2] at a3
    have := Submodule.add_mem _ a3 b3
    rwa [sub_add_sub_cancel] at this

/-- The arithmetic every use of `termRed_ok` needs. -/
theorem term_arith {n d p e last r : Nat} (hd : n < d) (hr : r = d * n - n) (hn : n + last ≤ p * e) :
    (r : Int) = (d : Int) * n - n ∧ (r : Int) ≤ p * ((e : Int) * d) - last * d ∧
    ∀ k : Nat, k ≤ last → ∃ m : Nat, n ≤ m ∧
      (p : Int) * ((e : Int) * d) - k * d - r = m * d - ((d : Int) * n - n) := by
  have hle : n ≤ d * n := Nat.le_mul_of_pos_left _ (by omega)
  have e1 : (r : Int) = (d : Int) * n - n := by rw [hr, Nat.cast_sub hle]; push_cast; ring
  have h2 : (n : Int) + last ≤ p * e := by exact_mod_cast hn
  refine ⟨e1, ?_, fun k hk => ⟨p * e - k, by omega, ?_⟩⟩
  · rw [e1]; nlinarith
  · rw [e1, Nat.cast_sub (by omega)]; push_cast; ring

theorem termP_ok [DecidableEq R] {solve : Solver R} {p' n d : Nat} {f : MonMap R} {D : DR R}
    (hC : Constructed solve p' f n d D) {L : List IVec} (hL : IsTable D.n ((D.d : Int) * D.n - D.n) L)
    (hn : 1 ≤ D.n) (p : Nat) (kind : LoopKind) : TermOK D p L (varP solve D p kind).term := by
  intro last u v G e hu hb hs hus h1 h2 h3 hG
  obtain ⟨-, -, hI⟩ := hC.init
  have hd := hI.ok.hd
  obtain ⟨r, hr⟩ : ∃ r, r = D.d * D.n - D.n := ⟨_, rfl⟩
  obtain ⟨a1, a2, a3⟩ := term_arith hd hr h3
  rw [← hr]
  have hv := hb.tuple hu hs
  obtain ⟨G', e1, e2, e3⟩ := termRed_ok (n := D.n) (d := D.d) (p := p) (r := r) hu hb hs (by omega)
    (one := oneP solve D kind) (batch := fun a b k G => reduceVectorJPoly solve D a b k G) kind h1 h2
    (by rw [hus]; exact a2)
    (fun w (H : CVec R) => H.len = L.length ∧ family D.n L (ev D.n (tweakNat (axmy p 0 u v) r)) G.e
      - family D.n L (ev D.n w) H.e ∈ Ex (DRpoly D) D.d)
    (by
      rintro i y G1 hi hf ⟨hG1, hrel⟩
      obtain ⟨m, hm1, hm2⟩ := a3 (i + 1) (by omega)
      obtain ⟨M, H, b1, b2, b3, b4, b5⟩ := step_family hC hL hn hf.len hf.nonneg hf.tup hf.supp hm1 (by
        rw [hf.sum, hus, ← hm2]; push_cast; ring) G1 hG1
      refine ⟨H, ?_, b4, ?_⟩
      · cases kind
        · exact b3
        · exact b3
        · show (getReductionMatrixJ solve D _ _ >>= fun M => M.mulVec G1) = _
          rw [b1, Res.bind_ok, b2]
      · rw [hf.add] at b5
        have := Submodule.add_mem _ hrel b5
        rwa [sub_add_sub_cancel] at this)
    (by
      rintro k dest G1 hk c1 c2 c3 c4 c5 ⟨hG1, hrel⟩
      obtain ⟨m, hm1, hm2⟩ := a3 k hk
      obtain ⟨H, b1, b2, b3⟩ := batch_family hC hL hn c1 c2 hv c3 hm1 (by
        rw [c5, hus, ← hm2]) k G1 hG1
      refine ⟨H, b1, b2, ?_⟩
      rw [c4] at b3
      have := Submodule.add_mem _ hrel b3
      rwa [sub_add_sub_cancel] at this)
    G ⟨hG, by rw [sub_self]; exact Submodule.zero_mem _⟩
  rw [axmy_zero hb.length] at e3
  refine ⟨G', ?_, e2, e3⟩
  rw [← e1, varP, a1]

end

section

variable {q : Nat} [NeZero q]

theorem congr_remZ {Z : CVec Int} {G : CVec (ZMod q)} (h : CongrVec Z G) : CongrVec (Z.remZ q) G := by
  refine ⟨h.1, fun r hr => ?_⟩
  have hr' : r < Z.len := by rw [h.1]; exact hr
  simp only [CVec.remZ, CVec.mk', if_pos hr']
  rw [ZMod.intCast_mod, h.2 r hr]

theorem stepZ_ok {solve : Solver (ZMod q)} {p' n d : Nat} {f : MonMap (ZMod q)} {D : DR (ZMod q)}
    (hC : Constructed solve p' f n d D) {L : List IVec} (hL : IsTable D.n ((D.d : Int) * D.n - D.n) L)
    {w v : IVec} (hw : w.length = D.n + 1) (hv : IsTuple (D.n + 1) D.d v)
    (hwv : ∀ i, ev D.n w i = 0 ∨ 0 < ev D.n v i) {Z : CVec Int} {G H : CVec (ZMod q)} (hG : G.len = L.length)
    (hZ : CongrVec Z G) {M : CMat (ZMod q)} (hM : getReductionMatrixJ solve D w v = .ok M)
    (hMG : M.mulVec G = .ok H) (hr : reduceVectorJ solve D w v G = .ok H) (kind : LoopKind) :
    ∃ Z', oneZ solve D kind w v Z = .ok Z' ∧ CongrVec Z' H := by
  obtain ⟨h1, h2, hI⟩ := hC.init
  subst h1 h2
  have hvec : ∃ Z', reduceVectorJZ solve D w v Z = .ok Z' ∧ CongrVec Z' H := by
    obtain ⟨Z', G', a1, a2, a3, a4, -⟩ := C27_sequence hC L hL [.single w v] (by
      intro c hc
      rw [List.mem_singleton] at hc
      subst hc
      exact ⟨hw, hv, hwv⟩) Z G hG hZ
    rw [runP, hr, Res.bind_ok] at a2
    obtain rfl : H = G' := Except.ok.inj a2
    rw [runZ] at a1
    obtain ⟨Z1, b1, b2⟩ := Res.bind_eq_ok.1 a1
    obtain rfl : Z1 = Z' := Except.ok.inj b2
    exact ⟨Z1, b1, a4⟩
  cases kind with
  | poly =>
    obtain ⟨Z', e1, e2⟩ := hvec
    refine ⟨Z'.remZ q, ?_, congr_remZ e2⟩
    show (reduceVectorJZ solve D w v Z >>= fun H => pure (H.remZ q)) = _
    rw [e1, Res.bind_ok]; rfl
  | vec =>
    obtain ⟨Z', e1, e2⟩ := hvec
    refine ⟨Z'.remZ q, ?_, congr_remZ e2⟩
    show (reduceVectorJZ solve D w v Z >>= fun H => pure (H.remZ q)) = _
    rw [e1, Res.bind_ok]; rfl
  | mat =>
    obtain ⟨MZ, M', b1, b2, b3, b4, b5⟩ := C27_matrix hC w v hw hv hwv
    obtain rfl : M = M' := Except.ok.inj (hM.symm.trans b2)
    have hcols : M.cols = G.len := by
      by_contra h
      rw [CMat.mulVec, if_neg h] at hMG
      cases hMG
    have hH : H = CVec.mk' M.rows (fun i => sumLoop M.cols (fun k => M.e i k * G.e k)) := by
      rw [CMat.mulVec, if_pos hcols] at hMG
      exact (Except.ok.inj hMG).symm
    refine ⟨(CVec.mk' MZ.rows (fun i => sumLoop MZ.cols (fun k => MZ.e i k * Z.e k))).remZ q, ?_, congr_remZ ?_⟩
    · show (getReductionMatrixJZ solve D w v >>= fun M => M.mulVec Z >>= fun H => pure (H.remZ q)) = _
      rw [b1, Res.bind_ok, CMat.mulVec, if_pos (by rw [b4, hcols, hZ.1]), Res.bind_ok]; rfl
    · rw [hH]
      refine ⟨b3, fun r hr' => ?_⟩
      have hr1 : r < M.rows := hr'
      simp only [CVec.mk', b3, b4, if_pos hr1, sumLoop_eq_sum]
      push_cast
      refine Finset.sum_congr rfl (fun k hk => ?_)
      have hk' := Finset.mem_range.1 hk
      rw [b5 r k hr1 hk', hZ.2 k (by omega)]

theorem batchZ_ok {solve : Solver (ZMod q)} {p' n d : Nat} {f : MonMap (ZMod q)} {D : DR (ZMod q)}
    (hC : Constructed solve p' f n d D) {L : List IVec} (hL : IsTable D.n ((D.d : Int) * D.n - D.n) L)
    {w v : IVec} (hw : w.length = D.n + 1) (hv : IsTuple (D.n + 1) D.d v)
    (hwv : ∀ i, ev D.n w i = 0 ∨ 0 < ev D.n v i) {Z : CVec Int} {G H : CVec (ZMod q)} (hG : G.len = L.length)
    (hZ : CongrVec Z G) {k : Nat} (hr : reduceVectorJPoly solve D w v k G = .ok H) :
    ∃ Z', reduceVectorJPolyZ solve D w v k Z = .ok Z' ∧ CongrVec Z' H := by
  obtain ⟨h1, h2, hI⟩ := hC.init
  subst h1 h2
  obtain ⟨Z', G', a1, a2, a3, a4, -⟩ := C27_sequence hC L hL [.batch w v k] (by
    intro c hc
    rw [List.mem_singleton] at hc
    subst hc
    exact ⟨hw, hv, hwv⟩) Z G hG hZ
  rw [runP, hr, Res.bind_ok] at a2
  obtain rfl : H = G' := Except.ok.inj a2
  rw [runZ] at a1
  obtain ⟨Z1, b1, b2⟩ := Res.bind_eq_ok.1 a1
  obtain rfl : Z1 = Z' := Except.ok.inj b2
  exact ⟨Z1, b1, a4⟩

theorem termZ_ok {solve : Solver (ZMod q)} {p' n d : Nat} {f : MonMap (ZMod q)} {D : DR (ZMod q)}
    (hC : Constructed solve p' f n d D) {L : List IVec} (hL : IsTable D.n ((D.d : Int) * D.n - D.n) L)
    (hn : 1 ≤ D.n) (p : Nat) (kind : LoopKind) : TermOK D p L (varZ solve D p kind).term := by
  intro last u v G e hu hb hs hus h1 h2 h3 hG
  obtain ⟨-, -, hI⟩ := hC.init
  have hd := hI.ok.hd
  obtain ⟨r, hr⟩ : ∃ r, r = D.d * D.n - D.n := ⟨_, rfl⟩
  obtain ⟨a1, a2, a3⟩ := term_arith hd hr h3
  rw [← hr]
  have hv := hb.tuple hu hs
  obtain ⟨Z', e1, H, e2, e3, e4⟩ := termRed_ok (n := D.n) (d := D.d) (p := p) (r := r) hu hb hs (by omega)
    (one := oneZ solve D kind) (batch := fun a b k G => reduceVectorJPolyZ solve D a b k G) kind h1 h2
    (by rw [hus]; exact a2)
    (fun w (Z : CVec Int) => ∃ H : CVec (ZMod q), CongrVec Z H ∧ H.len = L.length ∧
      family D.n L (ev D.n (tweakNat (axmy p 0 u v) r)) G.e - family D.n L (ev D.n w) H.e ∈ Ex (DRpoly D) D.d)
    (by
      rintro i y Z1 hi hf ⟨G1, hZ1, hG1, hrel⟩
      obtain ⟨m, hm1, hm2⟩ := a3 (i + 1) (by omega)
      obtain ⟨M, H, b1, b2, b3, b4, b5⟩ := step_family hC hL hn hf.len hf.nonneg hf.tup hf.supp hm1 (by
        rw [hf.sum, hus, ← hm2]; push_cast; ring) G1 hG1
      obtain ⟨Z2, c1, c2⟩ := stepZ_ok hC hL hf.len hf.tup hf.supp hG1 hZ1 b1 b2 b3 kind
      refine ⟨Z2, c1, H, c2, b4, ?_⟩
      rw [hf.add] at b5
      have := Submodule.add_mem _ hrel b5
      rwa [sub_add_sub_cancel] at this)
    (by
      rintro k dest Z1 hk c1 c2 c3 c4 c5 ⟨G1, hZ1, hG1, hrel⟩
      obtain ⟨m, hm1, hm2⟩ := a3 k hk
      obtain ⟨H, b1, b2, b3⟩ := batch_family hC hL hn c1 c2 hv c3 hm1 (by
        rw [c5, hus, ← hm2]) k G1 hG1
      obtain ⟨Z2, d1, d2⟩ := batchZ_ok hC hL c1 hv c3 hG1 hZ1 b1
      refine ⟨Z2, d1, H, d2, b2, ?_⟩
      rw [c4] at b3
      have := Submodule.add_mem _ hrel b3
      rwa [sub_add_sub_cancel] at this)
    (CVec.mk' G.len (fun i => liftZ (G.e i))) ⟨G, ⟨rfl, fun r hr => by
      simp only [CVec.mk', if_pos hr]; exact cast_liftZ _⟩, hG, by rw [sub_self]; exact Submodule.zero_mem _⟩
  rw [axmy_zero hb.length] at e4
  refine ⟨CVec.mk' Z'.len (fun i => ((Z'.e i : Int) : ZMod q)), ?_, by rw [← e3, ← e2.1]; rfl, ?_⟩
  · show (termRed _ _ _ _ _ _ _ _ _ >>= fun r => pure (r.1, _)) = _
    rw [← a1, e1, Res.bind_ok]; rfl
  · have : family D.n L (ev D.n (tweakNat (axmy p last u v) r)) (CVec.mk' Z'.len (fun i => ((Z'.e i : Int) : ZMod q))).e =
        family D.n L (ev D.n (tweakNat (axmy p last u v) r)) H.e := family_congr (fun k hk => by
      have h1 : k < Z'.len := by rw [e2.1, e3]; exact hk
      simp only [CVec.mk', if_pos h1]
      exact e2.2 k (by omega))
    rw [this]; exact e4

end

end Verif
