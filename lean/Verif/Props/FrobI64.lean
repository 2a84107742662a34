import Verif.Lemmas.FrobI64
import Verif.Props.FrobND
import Verif.Props.FrobMatrix

/-!
Property C90: the exponent vectors of the Frobenius functions of `hypersurface_non_degenerate` stay in 64 bits.
-/

namespace Verif

open Spec

section

variable {q : Nat} {solve : Solver (ZMod q)} {N : ND (ZMod q)} {p : Nat} {B : Int} {ei : IVec}

theorem varNDP_64 (hB : p * B < 2 ^ 63) (batched : Bool) : Var64 N.n p B ei (varNDP solve N p batched) (varNDP64 solve N p batched) where
  dir := rfl
  coef := rfl
  drop := rfl
  djm := rfl
  assertLast := rfl
  below _ _ _ _ hu h := directionND_below hu h
  term last u v G hl hu hs hb := by
    have hps : (p : Int) * u.sum < 2 ^ 63 := lt_of_le_of_lt (mul_le_mul_of_nonneg_left hs (by positivity)) hB
    cases batched with
    | true => exact ndBatched64_eq _ hb hl hps G
    | false =>
      show (mulVec64 p u >>= fun pu => ndSteps64 (oneNDP solve N v) v last pu G) = ndSteps (oneNDP solve N v) v last (mulVec p u) G
      rw [mulVec64_eq (by positivity) hu hps, Res.bind_ok]
      exact ndSteps64_eq last _ G (hb.mul (by omega) (by omega)) (by rw [mulVec_listSum]; exact hps)

theorem varNDZ_64 (hB : p * B < 2 ^ 63) (kind : LoopKind) : Var64 N.n p B ei (varNDZ solve N p kind) (varNDZ64 solve N p kind) where
  dir := rfl
  coef := rfl
  drop := rfl
  djm := rfl
  assertLast := rfl
  below _ _ _ _ hu h := directionND_below hu h
  term last u v G hl hu hs hb := by
    have hps : (p : Int) * u.sum < 2 ^ 63 := lt_of_le_of_lt (mul_le_mul_of_nonneg_left hs (by positivity)) hB
    simp only [varNDZ64, varNDZ]
    by_cases hk : kind = .poly
    · rw [if_pos hk, if_pos hk, ndBatched64_eq _ hb hl hps]
    · rw [if_neg hk, if_neg hk, mulVec64_eq (by positivity) hu hps, Res.bind_ok,
        ndSteps64_eq last _ _ (hb.mul (by omega) (by omega)) (by rw [mulVec_listSum]; exact hps)]

theorem varNDFlint_64 (hB : p * B < 2 ^ 63) (hei : NonNeg ei) : Var64 N.n p B ei (varNDFlint solve N p) (varNDFlint64 solve N p) where
  dir := rfl
  coef := rfl
  drop := rfl
  djm := rfl
  assertLast := rfl
  below e m u v hu h := by
    refine directionShift_below (s := if m < e then ei else List.replicate (N.n + 1) 0) ?_ hu h
    split
    · exact hei
    · intro x hx; rw [List.eq_of_mem_replicate hx]
  term last u v G hl hu hs hb := by
    have hps : (p : Int) * u.sum < 2 ^ 63 := lt_of_le_of_lt (mul_le_mul_of_nonneg_left hs (by positivity)) hB
    simp only [varNDFlint64, varNDFlint]
    rw [ndBatched64_eq _ hb hl hps]

theorem frobFunND64_eq {p' n d : Nat} {f : MonMap (ZMod q)} (hC : ConstructedND solve p' f n d N) (hn : 1 ≤ n)
    {var var' : NDVar (ZMod q)} (scale : Nat → Nat → Nat → CVec (ZMod q) → Res (CVec (ZMod q))) {T : List (MonMap (ZMod q))} (hT : Reached n f T)
    (hp : 1 ≤ p) (coord prec : Nat) (hsize : p * ((n + prec - 1) * d) < 2 ^ 63)
    (hv : ∀ (B : Int) (ei : IVec), p * B < 2 ^ 63 → NonNeg ei → Var64 N.n p B ei var var') :
    frobFunND64 var' scale solve N p T coord prec = frobFunND var scale solve N p T coord prec := by
  obtain ⟨rfl, rfl, hI⟩ := hC.init
  have hd := (hI.nd (by omega)).dr.hd
  rw [frobFunND64, frobFunND]
  by_cases hprec : 0 < prec
  · rw [decide_eq_true hprec, check_true, Res.bind_ok, Res.bind_ok]
    cases hc : aget N.basis coord with
    | error x => rfl
    | ok ei =>
      obtain ⟨powers, hT⟩ := hT
      obtain ⟨S, t1, t2, -, -⟩ := fpowCalls_ok hC.wf hC.hom powers (tableOK_start N.n N.d f)
      rw [hT] at t1
      obtain rfl := Except.ok.inj t1
      obtain ⟨S', u1, u2, u3, -⟩ := computeFpow_ok hC.wf hC.hom t2 ((prec : Int) - 1)
      obtain ⟨m1, m2, m3⟩ := basis_pole hI.base.basis (by omega) (aget_some hc)
      rw [Res.bind_ok, Res.bind_ok, hI.base.f_eq, u1, Res.bind_ok, Res.bind_ok, if_neg (by omega), if_neg (by omega)]
      simp only [poleOrder_sumVec]
      have h1 : p * ((poleOrder N.n N.d ei + prec - 1) * N.d) < 2 ^ 63 :=
        lt_of_le_of_lt (Nat.mul_le_mul_left _ (Nat.mul_le_mul_right _ (by omega))) hsize
      have h2 : (p : Int) * (((poleOrder N.n N.d ei + prec - 1 : Nat) : Int) * N.d) < 2 ^ 63 := by exact_mod_cast h1
      rw [frobCoreND64_eq (hv _ ei h2 m3.2.1) h2 hp (by omega) rfl m3 (by rw [hI.base.f_eq]; exact u2)]
      have h3 : p * (poleOrder N.n N.d ei + prec - 1) < 2 ^ 63 :=
        lt_of_le_of_lt (Nat.mul_le_mul_left _ (Nat.le_mul_of_pos_right _ (by omega))) h1
      have h4 : (p : Int) * (poleOrder N.n N.d ei + prec - 1) = ((p * (poleOrder N.n N.d ei + prec - 1) : Nat) : Int) := by
        rw [Nat.cast_mul, Nat.cast_sub (by omega), Nat.cast_add, Nat.cast_one]
      have h5 : i64 ((p : Int) * (poleOrder N.n N.d ei + prec - 1)) = .ok ((p * (poleOrder N.n N.d ei + prec - 1) : Nat) : Int) := by
        rw [h4, i64, if_pos ⟨by omega, by exact_mod_cast h3⟩]
      rw [h5]
      simp only [Res.bind_ok, Int.toNat_natCast]
  · rw [decide_eq_false hprec, check_false]
    rfl

/-- **C90.**  If `p (n + N - 1) d < 2^63`, no sum, difference or multiple of exponent vectors, no sum of entries and no product `p e`
in `frob_ND_ZZ`, `frob_ND_ZZ_p` and `frob_ND_flint` leaves the range of `int64_t`: with undefined behaviour for every overflow the functions do
the same as with unbounded integers, on every input, whether they return or not. -/
theorem C90_frob_ND {p' n d : Nat} {f : MonMap (ZMod q)} (hC : ConstructedND solve p' f n d N) (hn : 1 ≤ n)
    {T : List (MonMap (ZMod q))} (hT : Reached n f T) (hp : 1 ≤ p) (coord prec : Nat) (hsize : p * ((n + prec - 1) * d) < 2 ^ 63) :
    (∀ kind, frobNDZ64 solve N p kind T coord prec = frobNDZ solve N p kind T coord prec) ∧
    (∀ batched, frobNDP64 solve N p batched T coord prec = frobNDP solve N p batched T coord prec) ∧
    frobNDFlint64 solve N p T coord prec = frobNDFlint solve N p T coord prec :=
  ⟨fun kind => frobFunND64_eq hC hn _ hT hp coord prec hsize (fun _ _ hB _ => varNDZ_64 hB kind),
   fun batched => frobFunND64_eq hC hn _ hT hp coord prec hsize (fun _ _ hB _ => varNDP_64 hB batched),
   frobFunND64_eq hC hn _ hT hp coord prec hsize (fun _ _ hB hei => varNDFlint_64 hB hei)⟩

/-- The hypotheses hold for a binary cubic with `N = 2`, for a `p` as large as `2^60`. -/
example : ∃ N, ConstructedND exSolve 5 exCubic 1 3 N ∧ Reached 1 exCubic (fpowStart 1) ∧ 2 ^ 60 * ((1 + 2 - 1) * 3) < 2 ^ 63 := by
  obtain ⟨N, h, -⟩ := exCubic_constructedND
  exact ⟨N, h, ⟨[], rfl⟩, by norm_num⟩

/-- **C90 for `frob_matrix_ND`.** -/
theorem C90_frob_matrix_ND {p' n d : Nat} {f : MonMap (ZMod q)} (hC : ConstructedND solve p' f n d N) (hn : 1 ≤ n)
    {T : List (MonMap (ZMod q))} (hT : Reached n f T) (hp : 1 ≤ p) (pre : Bool) (order : List Nat) (prec : List Int)
    (hsize : ∀ k ∈ prec, p * ((n + k.toNat - 1) * d) < 2 ^ 63) :
    frobMatrixND64 solve N p pre order T prec = frobMatrixND solve N p pre order T prec := by
  have hf : N.f = f := by
    obtain ⟨-, -, hI⟩ := hC.init
    exact hI.base.f_eq
  rw [frobMatrixND64, frobMatrixND]
  cases check (decide (N.n = prec.length)) with
  | error x => rfl
  | ok _ =>
    rw [Res.bind_ok, Res.bind_ok]
    cases hP : frobPrepare pre N.f T prec with
    | error x => rfl
    | ok T0 =>
      have hT0 : Reached n f T0 := by
        rw [frobPrepare, hf] at hP
        split at hP
        · obtain ⟨mx, -, hP⟩ := Res.bind_eq_ok.1 hP
          exact hT.step hP
        · cases hP; exact hT
      rw [Res.bind_ok, Res.bind_ok]
      rw [(foldlM_eq_keep (f := frobIterND64 solve N p prec) (g := frobIterND solve N p prec) (P := fun s => Reached n f s.1)
        (Q := fun _ => True) (fun s i hs _ => ?_) order (T0, fun _ => CVec.mk' N.basis.length (fun _ => 0)) hT0 (fun _ _ => trivial)).1]
      rw [frobIterND64, frobIterND]
      cases aget N.basis i with
      | error x => exact ⟨rfl, fun s' h => (by cases h)⟩
      | ok b =>
        rw [Res.bind_ok, Res.bind_ok]
        by_cases hd : N.d = 0
        · rw [if_pos hd, if_pos hd]; exact ⟨rfl, fun s' h => (by cases h)⟩
        · rw [if_neg hd, if_neg hd]
          cases hg : iget prec ((sumVec b + N.n + 1) / N.d - 1) with
          | error x => exact ⟨rfl, fun s' h => (by cases h)⟩
          | ok Ni =>
            rw [Res.bind_ok, Res.bind_ok]
            have hmem : Ni ∈ prec := by
              rw [iget] at hg
              split at hg
              · cases hg
              · exact List.mem_of_getElem? (aget_some hg)
            by_cases h0 : 0 < Ni
            · rw [if_pos h0, if_pos h0, (C90_frob_ND hC hn hs hp i Ni.toNat (hsize Ni hmem)).2.2]
              refine ⟨rfl, fun s' h => ?_⟩
              obtain ⟨r, hr, h⟩ := Res.bind_eq_ok.1 h
              split at h
              · cases h
                rw [frobNDFlint, frobFunND] at hr
                obtain ⟨_, -, hr⟩ := Res.bind_eq_ok.1 hr
                obtain ⟨_, -, hr⟩ := Res.bind_eq_ok.1 hr
                obtain ⟨T', hT', hr⟩ := Res.bind_eq_ok.1 hr
                split at hr
                · cases hr
                · obtain ⟨_, -, hr⟩ := Res.bind_eq_ok.1 hr
                  obtain ⟨_, -, hr⟩ := Res.bind_eq_ok.1 hr
                  cases hr
                  rw [hf] at hT'
                  exact hs.step hT'
              · cases h
            · rw [if_neg h0, if_neg h0]
              exact ⟨rfl, fun s' h => by cases h; exact hs⟩

end

/-- **C90 (the bound is needed).**  A term `u` with an entry `x` such that `p x >= 2^63` makes each of the functions overflow,
whatever else the term holds. -/
theorem C90_overflow {q : Nat} (solve : Solver (ZMod q)) (N : ND (ZMod q)) (p e m : Nat) (ei : IVec) (s : MonMap (CVec (ZMod q)) × CVec (ZMod q))
    (t : IVec × CVec (ZMod q)) (x : Int) (hx : x ∈ t.1) (hover : 2 ^ 63 ≤ p * x) :
    (∀ batched v, (1 < e → directionND N.d t.1 = .ok v) →
      frobTermND64 (varNDP64 solve N p batched) solve N p e m ei s t = .error .ub) ∧
    (∀ kind v, (1 < e → directionND N.d t.1 = .ok v) →
      frobTermND64 (varNDZ64 solve N p kind) solve N p e m ei s t = .error .ub) ∧
    (∀ v, (1 < e → directionShift N.d t.1 (if m < e then ei else List.replicate (N.n + 1) 0) = .ok v) →
      frobTermND64 (varNDFlint64 solve N p) solve N p e m ei s t = .error .ub) := by
  have hm : mulVec64 p t.1 = .error .ub := by
    rw [mulVec64, fit64, if_neg]
    rw [List.all_eq_true]
    intro h
    have := h _ (List.mem_map_of_mem hx)
    have := of_decide_eq_true this
    omega
  have key : ∀ (var : NDVar (ZMod q)) (v : IVec), (1 < e → var.dir e m ei t.1 = .ok v) →
      (∀ last w G, var.term last t.1 w G = .error .ub) → frobTermND64 var solve N p e m ei s t = .error .ub := by
    intro var v hd ht
    rw [frobTermND64]
    by_cases he : 1 < e
    · rw [if_pos he, hd he, Res.bind_ok, ht]; rfl
    · rw [if_neg he, Res.bind_ok, ht]; rfl
  refine ⟨fun batched v hd => key _ v hd (fun last w G => ?_), fun kind v hd => key _ v hd (fun last w G => ?_),
    fun v hd => key _ v hd (fun last w G => ?_)⟩
  · simp only [varNDP64]
    cases batched
    · rw [if_neg (by decide), hm]; rfl
    · rw [if_pos rfl, ndBatched64, hm]; rfl
  · simp only [varNDZ64]
    split
    · rw [ndBatched64, hm]; rfl
    · rw [hm]; rfl
  · simp only [varNDFlint64]
    rw [ndBatched64, hm]; rfl

/-- A term of degree 6 and `p = 2^61`. -/
example : directionND 3 [4, 2] = .ok [3, 0] ∧ (4 : Int) ∈ ([4, 2] : IVec) ∧ (2 : Int) ^ 63 ≤ ((2 ^ 61 : Nat) : Int) * 4 := by decide

end Verif
