import Verif.Props.FrobI64
import Verif.Props.FrobJI64

/-!
Property C90, the converse for whole runs: above the bound the Frobenius functions in 64 bits do not return.
-/

namespace Verif

open Spec

/-- One element on which the body never returns is enough. -/
theorem foldlM_not_ok {α σ : Type} {f : σ → α → Res σ} {a : α} (h : ∀ s s', f s a ≠ .ok s') : ∀ (l : List α) (s : σ), a ∈ l →
    ∀ s', l.foldlM f s ≠ .ok s'
  | [], _, ha, _ => by cases ha
  | b :: l, s, ha, s' => by
    rw [List.foldlM_cons]
    intro hs
    obtain ⟨s1, h1, h2⟩ := Res.bind_eq_ok.1 hs
    rcases List.mem_cons.1 ha with rfl | ha
    · exact h s s1 h1
    · exact foldlM_not_ok h l s1 ha s' h2

/-- A first pass that never returns. -/
theorem downTo_not_ok {S : Type} {lo cnt : Nat} {body : Nat → S → Res S} {s : S} (h : ∀ s', body (lo + cnt + 1) s ≠ .ok s') (s' : S) :
    downTo lo body (cnt + 1) s ≠ .ok s' := by
  rw [downTo]
  intro hs
  obtain ⟨s1, h1, -⟩ := Res.bind_eq_ok.1 hs
  exact h s1 h1

theorem mulVec64_over {p : Nat} {u : IVec} {x : Int} (hx : x ∈ u) (hover : 2 ^ 63 ≤ p * x) : mulVec64 p u = .error .ub := by
  rw [mulVec64, fit64, if_neg]
  rw [List.all_eq_true]
  intro h
  have := h _ (List.mem_map_of_mem hx)
  have := of_decide_eq_true this
  omega

theorem fit64_ok {v w : IVec} (h : fit64 v = .ok w) : w = v := by
  rw [fit64] at h
  split at h
  · exact (Except.ok.inj h).symm
  · cases h

theorem addVec64_ok {v w r : IVec} (h : addVec64 v w = .ok r) : addVec v w = .ok r := by
  rw [addVec64] at h
  obtain ⟨a, h1, h2⟩ := Res.bind_eq_ok.1 h
  rw [fit64_ok h2, h1]

section

variable {q : Nat}

/-- **C90 (the bound is needed, `hypersurface`).**  If `f^(N-1)` has a monomial `w` such that `p` times some entry of
`w + e_i + (1, ..., 1)` is at least `2^63`, then `frob_J_ZZ` and `frob_J_ZZ_p` do not return in 64 bits, for every loop. -/
theorem C90_overflow_J (solve : Solver (ZMod q)) (D : DR (ZMod q)) (p : Nat) {T T' : List (MonMap (ZMod q))} {coord N : Nat} {ei a mon : IVec}
    (hT : computeFpow D.f T ((N : Int) - 1) = .ok T') (hei : aget D.basis coord = .ok ei) {P : MonMap (ZMod q)} (hP : aget T' (N - 1) = .ok P)
    {it : IVec × ZMod q} (hit : it ∈ P) (ha : addVec it.1 ei = .ok a) (hmon : addVec a (List.replicate (D.n + 1) 1) = .ok mon) {x : Int}
    (hx : x ∈ mon) (hover : 2 ^ 63 ≤ p * x) (hloop : D.n / p < ((sumVec ei + D.n + 1) / D.d).toNat + N - 1) (kind : LoopKind) (r) :
    frobFun64 (varZ64 solve D p kind) solve D p T coord N ≠ .ok r ∧ frobFun64 (varP64 solve D p kind) solve D p T coord N ≠ .ok r := by
  have key : ∀ var : FrobVar (ZMod q), frobFun64 var solve D p T coord N ≠ .ok r := by
    intro var hr
    rw [frobFun64] at hr
    obtain ⟨_, h0, hr⟩ := Res.bind_eq_ok.1 hr
    have hN : 0 < N := by
      by_contra hN
      rw [decide_eq_false hN, check_false] at h0
      cases h0
    rw [hei, Res.bind_ok, hT, Res.bind_ok] at hr
    obtain ⟨F, hF, -⟩ := Res.bind_eq_ok.1 hr
    rw [frobCore64] at hF
    obtain ⟨_, -, hF⟩ := Res.bind_eq_ok.1 hF
    rw [hei, Res.bind_ok] at hF
    split at hF
    · cases hF
    · obtain ⟨dn, -, hF⟩ := Res.bind_eq_ok.1 hF
      obtain ⟨_, -, hF⟩ := Res.bind_eq_ok.1 hF
      obtain ⟨len, -, hF⟩ := Res.bind_eq_ok.1 hF
      split at hF
      · cases hF
      · obtain ⟨st, hst, -⟩ := Res.bind_eq_ok.1 hF
        generalize hm : ((sumVec ei + D.n + 1) / D.d).toNat = m at *
        obtain ⟨c, hc⟩ : ∃ c, m + N - 1 - D.n / p = c + 1 := ⟨m + N - 1 - D.n / p - 1, by omega⟩
        rw [hc] at hst
        refine downTo_not_ok (fun s' hs => ?_) st hst
        have he : D.n / p + c + 1 = m + N - 1 := by omega
        rw [he, frobPass64] at hs
        obtain ⟨H, hH, -⟩ := Res.bind_eq_ok.1 hs
        rw [frobNew64, if_pos (by omega)] at hH
        obtain ⟨dictV, -, hH⟩ := Res.bind_eq_ok.1 hH
        obtain ⟨Dj, -, hH⟩ := Res.bind_eq_ok.1 hH
        rw [show m + N - 1 - m = N - 1 by omega, hP, Res.bind_ok, addTerms64] at hH
        refine foldlM_not_ok (a := it) (fun s s' h => ?_) P _ hit H hH
        obtain ⟨a', h1, h⟩ := Res.bind_eq_ok.1 h
        obtain ⟨mon', h2, h⟩ := Res.bind_eq_ok.1 h
        have e1 := addVec64_ok h1
        rw [ha] at e1
        obtain rfl := Except.ok.inj e1
        have e2 := addVec64_ok h2
        rw [hmon] at e2
        obtain rfl := Except.ok.inj e2
        rw [mulVec64_over hx hover, Res.bind_error] at h
        cases h
  exact ⟨key _, key _⟩

/-- `frob_J` of a binary cubic with `N = 1` and `p = 2^62`: the first basis element `y` leads to `x y^2`, and `2 p = 2^63`. -/
example : ∃ D, Constructed exSolve 5 exCubic 1 3 D ∧
    ∀ kind r, frobFun64 (varZ64 exSolve D (2 ^ 62) kind) exSolve D (2 ^ 62) (fpowStart 1) 0 1 ≠ .ok r := by
  obtain ⟨D, h, hb⟩ := exCubic_constructed
  obtain ⟨h1, h2, -⟩ := h.init
  refine ⟨D, h, fun kind r => (C90_overflow_J exSolve D (2 ^ 62) (T := fpowStart 1) (T' := fpowStart 1) (coord := 0) (N := 1)
    (ei := [0, 1]) (a := [0, 1]) (mon := [1, 2]) rfl (by rw [hb]; rfl) (P := [([0, 0], 1)]) rfl (it := ([0, 0], 1)) (by simp) rfl
    (by rw [h1]; rfl) (x := 2) (by simp) (by norm_num) (by rw [h1, h2]; decide) kind r).1⟩

/-- The entry for `mon` is not removed by later terms. -/
theorem addTermsND64_keeps {var : NDVar (ZMod q)} {N : ND (ZMod q)} {ei : IVec} {Dj : Int} {fact : ZMod q} {mon : IVec} :
    ∀ (P : MonMap (ZMod q)) (H H' : MonMap (CVec (ZMod q))), mon ∈ H.keys → addTermsND64 var N ei Dj fact P H = .ok H' → mon ∈ H'.keys
  | [], H, H', hk, h => by
    cases h
    exact hk
  | it :: P, H, H', hk, h => by
    rw [addTermsND64, List.foldlM_cons] at h
    obtain ⟨H1, h1, h2⟩ := Res.bind_eq_ok.1 h
    refine addTermsND64_keeps P H1 H' ?_ h2
    obtain ⟨a', -, h1⟩ := Res.bind_eq_ok.1 h1
    obtain ⟨mon', -, h1⟩ := Res.bind_eq_ok.1 h1
    split at h1
    · cases h1
      exact hk
    · rw [hAdd] at h1
      split at h1
      · cases h1
        rw [addTerm, MonMap.mem_keys_set]
        exact Or.inr hk
      · cases h1

/-- The new monomial is entered. -/
theorem addTermsND64_enters {var : NDVar (ZMod q)} {N : ND (ZMod q)} {ei a mon : IVec} {Dj : Int} {fact : ZMod q} {it : IVec × ZMod q}
    (ha : addVec it.1 ei = .ok a) (hmon : addVec a (List.replicate (N.n + 1) 1) = .ok mon) (hdrop : var.drop (var.coef Dj it.2 fact) = false) :
    ∀ (P : MonMap (ZMod q)) (H H' : MonMap (CVec (ZMod q))), it ∈ P → addTermsND64 var N ei Dj fact P H = .ok H' → mon ∈ H'.keys
  | [], H, H', hk, h => by cases hk
  | jt :: P, H, H', hk, h => by
    rw [addTermsND64, List.foldlM_cons] at h
    obtain ⟨H1, h1, h2⟩ := Res.bind_eq_ok.1 h
    rcases List.mem_cons.1 hk with rfl | hk
    · refine addTermsND64_keeps P H1 H' ?_ h2
      obtain ⟨a', k1, h1⟩ := Res.bind_eq_ok.1 h1
      obtain ⟨mon', k2, h1⟩ := Res.bind_eq_ok.1 h1
      have e1 := addVec64_ok k1
      rw [ha] at e1
      obtain rfl := Except.ok.inj e1
      have e2 := addVec64_ok k2
      rw [hmon] at e2
      obtain rfl := Except.ok.inj e2
      rw [hdrop, if_neg (by decide), hAdd] at h1
      split at h1
      · cases h1
        rw [addTerm, MonMap.mem_keys_set]
        exact Or.inl rfl
      · cases h1
    · exact addTermsND64_enters ha hmon hdrop P H1 H' hk h2

/-- **C90 (the bound is needed, `hypersurface_non_degenerate`).**  The same for `frob_ND_ZZ` and `frob_ND_ZZ_p`, for every loop, and for
`frob_ND_flint` when the coefficient of the monomial in the first pass is not zero. -/
theorem C90_overflow_ND (solve : Solver (ZMod q)) (N : ND (ZMod q)) (p : Nat) {T T' : List (MonMap (ZMod q))} {coord prec : Nat} {ei a mon : IVec}
    (hT : computeFpow N.f T ((prec : Int) - 1) = .ok T') (hei : aget N.basis coord = .ok ei) {P : MonMap (ZMod q)}
    (hP : aget T' (prec - 1) = .ok P) {it : IVec × ZMod q} (hit : it ∈ P) (ha : addVec it.1 ei = .ok a)
    (hmon : addVec a (List.replicate (N.n + 1) 1) = .ok mon) {x : Int} (hx : x ∈ mon) (hover : 2 ^ 63 ≤ p * x)
    (hloop : 0 < ((sumVec ei + N.n + 1) / N.d).toNat + prec - 1) (r) :
    (∀ kind, frobNDZ64 solve N p kind T coord prec ≠ .ok r) ∧
    (∀ batched, frobNDP64 solve N p batched T coord prec ≠ .ok r) ∧
    ((∀ Dj, (varNDFlint solve N p).djm ((sumVec ei + N.n + 1) / N.d).toNat (prec - 1) prec = .ok Dj →
        (varNDFlint solve N p).coef Dj it.2 1 ≠ 0) → frobNDFlint64 solve N p T coord prec ≠ .ok r) := by
  have key : ∀ (var : NDVar (ZMod q)) (scale : Nat → Nat → Nat → CVec (ZMod q) → Res (CVec (ZMod q))),
      (∀ Dj, var.djm ((sumVec ei + N.n + 1) / N.d).toNat (prec - 1) prec = .ok Dj → var.drop (var.coef Dj it.2 1) = false) →
      (∀ last w G, var.term last mon w G = .error .ub) → frobFunND64 var scale solve N p T coord prec ≠ .ok r := by
    intro var scale hdrop hterm hr
    rw [frobFunND64] at hr
    obtain ⟨_, h0, hr⟩ := Res.bind_eq_ok.1 hr
    have hN : 0 < prec := by
      by_contra hN
      rw [decide_eq_false hN, check_false] at h0
      cases h0
    rw [hei, Res.bind_ok, hT, Res.bind_ok] at hr
    split at hr
    · cases hr
    · obtain ⟨F, hF, -⟩ := Res.bind_eq_ok.1 hr
      rw [frobCoreND64] at hF
      obtain ⟨st, hst, -⟩ := Res.bind_eq_ok.1 hF
      generalize hm : ((sumVec ei + N.n + 1) / N.d).toNat = m at *
      obtain ⟨c, hc⟩ : ∃ c, m + prec - 1 = c + 1 := ⟨m + prec - 1 - 1, by omega⟩
      rw [hc] at hst
      refine downTo_not_ok (fun s' hs => ?_) st hst
      have he : 0 + c + 1 = m + prec - 1 := by omega
      rw [he, frobPassND64] at hs
      obtain ⟨H, hH, hs⟩ := Res.bind_eq_ok.1 hs
      obtain ⟨_, -, hs⟩ := Res.bind_eq_ok.1 hs
      obtain ⟨s1, hs1, -⟩ := Res.bind_eq_ok.1 hs
      rw [frobNewND64, if_pos (by omega)] at hH
      obtain ⟨Dj, hDj, hH⟩ := Res.bind_eq_ok.1 hH
      rw [show m + prec - 1 - m = prec - 1 by omega] at hDj hH
      rw [hP, Res.bind_ok] at hH
      have hk := addTermsND64_enters ha hmon (hdrop Dj hDj) P _ H hit hH
      obtain ⟨t, ht, rfl⟩ := List.mem_map.1 hk
      refine foldlM_not_ok (a := t) (fun s s' h => ?_) H _ ht s1 hs1
      rw [frobTermND64] at h
      obtain ⟨v, -, h⟩ := Res.bind_eq_ok.1 h
      rw [hterm, Res.bind_error] at h
      cases h
  have hmul := mulVec64_over hx hover
  refine ⟨fun kind => key _ _ (fun _ _ => rfl) (fun last w G => ?_), fun batched => key _ _ (fun _ _ => rfl) (fun last w G => ?_),
    fun h => key _ _ (fun Dj hDj => decide_eq_false (h Dj hDj)) (fun last w G => ?_)⟩
  · simp only [varNDZ64]
    split
    · rw [ndBatched64, hmul]; rfl
    · rw [hmul]; rfl
  · simp only [varNDP64]
    cases batched
    · rw [if_neg (by decide), hmul]; rfl
    · rw [if_pos rfl, ndBatched64, hmul]; rfl
  · simp only [varNDFlint64]
    rw [ndBatched64, hmul]; rfl

set_option maxRecDepth 100000 in
/-- The same run of `frob_ND_ZZ`. -/
example : ∃ N, ConstructedND exSolve 5 exCubic 1 3 N ∧
    ∀ kind r, frobNDZ64 exSolve N (2 ^ 62) kind (fpowStart 1) 0 1 ≠ .ok r := by
  obtain ⟨N, hN, hb⟩ := isOk_of_bind (g := fun N => N.basis) (x := ND.init exSolve 5 exCubic) (b := [[0, 1], [1, 0]]) (by decide +kernel)
  obtain ⟨N', h, -⟩ := exCubic_constructedND
  obtain rfl : N = N' := by have := h.built; rw [hN] at this; exact Except.ok.inj this
  obtain ⟨h1, h2, -⟩ := h.init
  refine ⟨N, h, fun kind r => (C90_overflow_ND exSolve N (2 ^ 62) (T := fpowStart 1) (T' := fpowStart 1) (coord := 0) (prec := 1)
    (ei := [0, 1]) (a := [0, 1]) (mon := [1, 2]) rfl (by rw [hb]; rfl) (P := [([0, 0], 1)]) rfl (it := ([0, 0], 1)) (by simp) rfl
    (by rw [h1]; rfl) (x := 2) (by simp) (by norm_num) (by rw [h1, h2]; decide) r).1 kind⟩

end

end Verif
