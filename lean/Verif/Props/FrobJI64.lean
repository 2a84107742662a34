import Verif.Lemmas.FrobJI64
import Verif.Props.FrobMatrix
import Verif.Props.Frob

/-!
Property C90 for `hypersurface`: the exponent vectors of `frob_J_ZZ` and `frob_J_ZZ_p` stay in 64 bits.
-/

namespace Verif

open Spec

section

variable {q : Nat} {solve : Solver (ZMod q)} {D : DR (ZMod q)} {p : Nat}

theorem varP_64 {R : Type} [CommRing R] [DecidableEq R] {solve : Solver R} {D : DR R} (hp : 1 ≤ p) (hr : (0 : Int) ≤ (D.d : Int) * D.n - D.n) {B : Int}
    (hB : p * B < 2 ^ 63) (kind : LoopKind) :
    VarJ64 p B (varP solve D p kind) (varP64 solve D p kind) where
  coef := rfl
  skip := rfl
  djm := rfl
  djmLast := rfl
  full := rfl
  assertFact := rfl
  reuse := rfl
  term last u v G hl hu hs hb := by
    have hps : (p : Int) * u.sum < 2 ^ 63 := lt_of_le_of_lt (mul_le_mul_of_nonneg_left hs (Int.natCast_nonneg p)) hB
    have hu1 : u.sum < 2 ^ 63 := lt_of_le_of_lt (le_mul_of_one_le_left (List.sum_nonneg hu) (by exact_mod_cast hp)) hps
    simp only [varP64, varP]
    exact termRed64_eq _ _ kind hr hb hl hps hu1 G

theorem varZ_64 (hp : 1 ≤ p) (hr : (0 : Int) ≤ (D.d : Int) * D.n - D.n) {B : Int} (hB : p * B < 2 ^ 63) (kind : LoopKind) :
    VarJ64 p B (varZ solve D p kind) (varZ64 solve D p kind) where
  coef := rfl
  skip := rfl
  djm := rfl
  djmLast := rfl
  full := rfl
  assertFact := rfl
  reuse := rfl
  term last u v G hl hu hs hb := by
    have hps : (p : Int) * u.sum < 2 ^ 63 := lt_of_le_of_lt (mul_le_mul_of_nonneg_left hs (Int.natCast_nonneg p)) hB
    have hu1 : u.sum < 2 ^ 63 := lt_of_le_of_lt (le_mul_of_one_le_left (List.sum_nonneg hu) (by exact_mod_cast hp)) hps
    simp only [varZ64, varZ]
    rw [termRed64_eq _ _ kind hr hb hl hps hu1]

theorem frobFun64_eq {p' n d : Nat} {f : MonMap (ZMod q)} (hC : Constructed solve p' f n d D) (hn : 1 ≤ n)
    {var var' : FrobVar (ZMod q)} {T : List (MonMap (ZMod q))} (hT : Reached n f T)
    (hp : 1 ≤ p) (coord prec : Nat) (hsize : p * ((n + prec - 1) * d) < 2 ^ 63)
    (hv : (0 : Int) ≤ (D.d : Int) * D.n - D.n → ∀ B : Int, p * B < 2 ^ 63 → VarJ64 p B var var') :
    frobFun64 var' solve D p T coord prec = frobFun var solve D p T coord prec := by
  obtain ⟨rfl, rfl, hI⟩ := hC.init
  have hd := hI.ok.hd
  have hr : (0 : Int) ≤ (D.d : Int) * D.n - D.n := by
    have : D.n ≤ D.d * D.n := Nat.le_mul_of_pos_left _ (by omega)
    have h2 : (D.n : Int) ≤ ((D.d * D.n : Nat) : Int) := by exact_mod_cast this
    push_cast at h2
    omega
  obtain ⟨powers, hT⟩ := hT
  obtain ⟨S, t1, t2, -, -⟩ := fpowCalls_ok hC.wf hC.hom powers (tableOK_start D.n D.d f)
  rw [hT] at t1
  obtain rfl := Except.ok.inj t1
  obtain ⟨S', u1, u2, u3, -⟩ := computeFpow_ok hC.wf hC.hom t2 ((prec : Int) - 1)
  have hcore := frobCore64_eq (solve := solve) (coord := coord) hn (by omega) hp (hv hr) hsize
    (fun ei hc => basis_pole hI.basis (by omega) hc) (fun ei => poleOrder_sumVec D.n D.d ei) (by rw [hI.f_eq]; exact u2)
  rw [frobFun64, frobFun, hI.f_eq, u1]
  refine congrArg (fun k => _ >>= k) (funext fun _ => ?_)
  refine congrArg (fun k => _ >>= k) (funext fun ei => ?_)
  rw [Res.bind_ok, Res.bind_ok, hcore]

/-- **C90 for `hypersurface`.**  If `p (n + N - 1) d < 2^63`, nothing in the exponent vectors of `frob_J_ZZ` and `frob_J_ZZ_p` leaves the range
of `int64_t`, for every loop: with undefined behaviour for every overflow the functions do the same as with unbounded integers, whether
they return or not. -/
theorem C90_frob_J {p' n d : Nat} {f : MonMap (ZMod q)} (hC : Constructed solve p' f n d D) (hn : 1 ≤ n)
    {T : List (MonMap (ZMod q))} (hT : Reached n f T) (hp : 1 ≤ p) (kind : LoopKind) (coord prec : Nat)
    (hsize : p * ((n + prec - 1) * d) < 2 ^ 63) :
    frobFun64 (varZ64 solve D p kind) solve D p T coord prec = frobFun (varZ solve D p kind) solve D p T coord prec ∧
    frobFun64 (varP64 solve D p kind) solve D p T coord prec = frobFun (varP solve D p kind) solve D p T coord prec :=
  ⟨frobFun64_eq hC hn hT hp coord prec hsize (fun hr _ hB => varZ_64 hp hr hB kind),
   frobFun64_eq hC hn hT hp coord prec hsize (fun hr _ hB => varP_64 hp hr hB kind)⟩

/-- The hypotheses hold for a binary cubic with `N = 2`, for a `p` as large as `2^60`. -/
example : ∃ D, Constructed exSolve 5 exCubic 1 3 D ∧ Reached 1 exCubic (fpowStart 1) ∧ 2 ^ 60 * ((1 + 2 - 1) * 3) < 2 ^ 63 := by
  obtain ⟨D, h, -⟩ := exCubic_constructed
  exact ⟨D, h, ⟨[], rfl⟩, by norm_num⟩

/-- **C90 for `frob_matrix_J`.** -/
theorem C90_frob_matrix_J {p' n d : Nat} {f : MonMap (ZMod q)} (hC : Constructed solve p' f n d D) (hn : 1 ≤ n)
    {T : List (MonMap (ZMod q))} (hT : Reached n f T) (hp : 1 ≤ p) (pre : Bool) (order : List Nat) (prec : List Int)
    (hsize : ∀ k ∈ prec, p * ((n + k.toNat - 1) * d) < 2 ^ 63) :
    frobMatrixJ64 solve D p pre order T prec = frobMatrixJ solve D p pre order T prec := by
  have hf : D.f = f := by
    obtain ⟨-, -, hI⟩ := hC.init
    exact hI.f_eq
  rw [frobMatrixJ64, frobMatrixJ]
  cases check (decide (D.n = prec.length)) with
  | error x => rw [Res.bind_error, Res.bind_error]
  | ok _ =>
    rw [Res.bind_ok, Res.bind_ok]
    cases hP : frobPrepare pre D.f T prec with
    | error x => rw [Res.bind_error, Res.bind_error]
    | ok T0 =>
      have hT0 : Reached n f T0 := by
        rw [frobPrepare, hf] at hP
        split at hP
        · obtain ⟨mx, -, hP⟩ := Res.bind_eq_ok.1 hP
          exact hT.step hP
        · cases hP; exact hT
      rw [Res.bind_ok, Res.bind_ok]
      rw [(foldlM_eq_keep (f := frobIter64 solve D p prec) (g := frobIter solve D p prec) (P := fun s => Reached n f s.1)
        (Q := fun _ => True) (fun s i hs _ => ?_) order (T0, fun _ => CVec.mk' D.basis.length (fun _ => 0)) hT0 (fun _ _ => trivial)).1]
      rw [frobIter64, frobIter]
      cases aget D.basis i with
      | error x => exact ⟨by rw [Res.bind_error, Res.bind_error], fun s' h => (by cases h)⟩
      | ok b =>
        rw [Res.bind_ok, Res.bind_ok]
        by_cases hd : D.d = 0
        · rw [if_pos hd, if_pos hd]; exact ⟨rfl, fun s' h => (by cases h)⟩
        · rw [if_neg hd, if_neg hd]
          cases hg : iget prec ((sumVec b + D.n + 1) / D.d - 1) with
          | error x => exact ⟨by rw [Res.bind_error, Res.bind_error], fun s' h => (by cases h)⟩
          | ok Ni =>
            rw [Res.bind_ok, Res.bind_ok]
            have hmem : Ni ∈ prec := by
              rw [iget] at hg
              split at hg
              · cases hg
              · exact List.mem_of_getElem? (aget_some hg)
            by_cases h0 : 0 < Ni
            · rw [if_pos h0, if_pos h0, frobJ64, frobJ, (C90_frob_J hC hn hs hp .poly i Ni.toNat (hsize Ni hmem)).1]
              refine ⟨rfl, fun s' h => ?_⟩
              obtain ⟨r, hr, h⟩ := Res.bind_eq_ok.1 h
              split at h
              · cases h
                rw [frobFun] at hr
                obtain ⟨_, -, hr⟩ := Res.bind_eq_ok.1 hr
                obtain ⟨_, -, hr⟩ := Res.bind_eq_ok.1 hr
                obtain ⟨T', hT', hr⟩ := Res.bind_eq_ok.1 hr
                obtain ⟨_, -, hr⟩ := Res.bind_eq_ok.1 hr
                obtain ⟨_, -, hr⟩ := Res.bind_eq_ok.1 hr
                cases hr
                rw [hf] at hT'
                exact hs.step hT'
              · cases h
            · rw [if_neg h0, if_neg h0]
              exact ⟨rfl, fun s' h => by cases h; exact hs⟩

/-- The precisions `[2]` of a binary cubic. -/
example : ∃ D, Constructed exSolve 5 exCubic 1 3 D ∧ Reached 1 exCubic (fpowStart 1) ∧
    ∀ k ∈ ([2] : List Int), 5 * ((1 + k.toNat - 1) * 3) < 2 ^ 63 := by
  obtain ⟨D, h, -⟩ := exCubic_constructed
  exact ⟨D, h, ⟨[], rfl⟩, by decide⟩

end

end Verif
