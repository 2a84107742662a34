import Verif.Lemmas.CacheNDCok

/-! The Frobenius functions with the dictionaries return the values of those without. -/

namespace Verif

open Spec

variable {q : Nat} {solve : Solver (ZMod q)} {N : ND (ZMod q)}

/-- The cokernel matrices are those of the levels. -/
def CokEq (solve : Solver (ZMod q)) (N : ND (ZMod q)) : Prop :=
  ∀ u, getCokND solve N u = cokernelsToBasis solve N u

theorem nsim_cok' (hc : CokEq solve N) (u : IVec) : NSim solve N (cCokND solve N u) (cokernelsToBasis solve N u) := by
  rw [← hc u]; exact nsim_cok u

theorem nsim_mtbLoopND (cnt : Nat) : ∀ u G, NSim solve N (cMtbLoopND solve N cnt u G) (mtbLoopND solve N cnt u G) := by
  induction cnt with
  | zero => intro u G; exact NSim.pure _
  | succ cnt ih =>
    intro u G
    rw [cMtbLoopND, mtbLoopND]
    exact NSim.bind (NSim.pureRes _) (fun v => NSim.bind (NSim.pureRes _) (fun u' =>
      NSim.bind (nsim_reduceND _ _ _) (fun G' => ih _ _)))

theorem nsim_ite {α : Type} {c : Prop} [Decidable c] {x x' : NM q α} {y y' : Res α} (h : c → NSim solve N x y)
    (h' : ¬ c → NSim solve N x' y') : NSim solve N (if c then x else x') (if c then y else y') := by
  by_cases hc : c
  · rw [if_pos hc, if_pos hc]; exact h hc
  · rw [if_neg hc, if_neg hc]; exact h' hc

theorem nsim_monomialND (hc : CokEq solve N) (u : IVec) :
    NSim solve N (cMonomialND solve N u) (monomialToBasisND solve N u) := by
  rw [cMonomialND, monomialToBasisND]
  exact NSim.bind (NSim.pureRes _) (fun _ => NSim.bind (NSim.pureRes _) (fun _ =>
    nsim_ite (fun _ => NSim.pureRes _) (fun _ => NSim.bind (NSim.pureRes _) (fun _ =>
    nsim_ite (fun _ => NSim.pureRes _) (fun _ => NSim.bind (nsim_mtbLoopND _ _ _) (fun _ =>
    NSim.bind (NSim.pureRes _) (fun _ => NSim.bind (nsim_cok' hc _) (fun _ => NSim.pureRes _))))))))

theorem nsim_ndSteps {V : Type} {one : IVec → V → NM q V} {one' : IVec → V → Res V}
    (h : ∀ dest G, NSim solve N (one dest G) (one' dest G)) (v : IVec) (cnt : Nat) :
    ∀ dest G, NSim solve N (cNdSteps one v cnt dest G) (ndSteps one' v cnt dest G) := by
  induction cnt with
  | zero => intro u G; exact NSim.pure _
  | succ cnt ih =>
    intro dest G
    rw [cNdSteps, ndSteps]
    exact NSim.bind (NSim.pureRes _) (fun _ => NSim.bind (h _ _) (fun _ => ih _ _))

theorem nsim_ndBatched {V : Type} {batch : IVec → IVec → Int → V → NM q V} {batch' : IVec → IVec → Int → V → Res V}
    (h : ∀ a b k G, NSim solve N (batch a b k G) (batch' a b k G)) (p last : Nat) (u v : IVec) (G : V) :
    NSim solve N (cNdBatched batch p last u v G) (ndBatched batch' p last u v G) :=
  NSim.bind (NSim.pureRes _) (fun _ => NSim.bind (h _ _ _ _) (fun _ => NSim.pure _))

/-- The reduction of one term is the one of the variant. -/
def TermSim (solve : Solver (ZMod q)) (N : ND (ZMod q)) (var : NDVar (ZMod q)) (term : CTerm q) : Prop :=
  ∀ last u v G, NSim solve N (term last u v G) (var.term last u v G)

theorem termSim_P (sm : Bool) (p : Nat) (batched : Bool) :
    TermSim solve N (varNDP solve N p batched) (cTermNDP solve N sm p batched) := by
  intro last u v G
  rw [cTermNDP, varNDP]
  exact nsim_ite (fun _ => nsim_ndBatched (fun _ _ _ _ => nsim_reduceNDPoly _ _ _ _ _) _ _ _ _ _)
    (fun _ => nsim_ndSteps (fun dest G => NSim.bind (nsim_getRedND _ _) (fun _ => NSim.pureRes _)) _ _ _ _)

theorem nsim_oneNDZ (sm : Bool) (kind : LoopKind) (v dest : IVec) (G) :
    NSim solve N (cOneNDZ solve N sm kind v dest G) (oneNDZ solve N kind v dest G) := by
  cases kind <;>
    first
    | exact NSim.bind (nsim_getRedNDZ _ _ _) (fun _ => NSim.pureRes _)
    | exact NSim.bind (nsim_reduceNDZ _ _ _ _) (fun _ => NSim.pureRes _)

theorem termSim_Z (sm : Bool) (p : Nat) (kind : LoopKind) :
    TermSim solve N (varNDZ solve N p kind) (cTermNDZ solve N sm p kind) := by
  intro last u v G
  rw [cTermNDZ, varNDZ]
  exact NSim.bind (nsim_ite (fun _ => nsim_ndBatched (fun _ _ _ _ => nsim_reduceNDPolyZ _ _ _ _ _) _ _ _ _ _)
    (fun _ => nsim_ndSteps (fun dest G => nsim_oneNDZ _ _ _ _ _) _ _ _ _)) (fun _ => NSim.pure _)

theorem termSim_flint (sm : Bool) (p : Nat) :
    TermSim solve N (varNDFlint solve N p) (cTermNDFlint solve N sm p) := by
  intro last u v G
  rw [cTermNDFlint, varNDFlint]
  exact NSim.bind (nsim_ndBatched (fun _ _ _ _ => NSim.bind (nsim_getNDPolyZ _ _ _) (fun _ => NSim.pureRes _)) _ _ _ _ _)
    (fun _ => NSim.pure _)

section

variable {var : NDVar (ZMod q)} {term : CTerm q}

theorem nsim_frobTermND (hc : CokEq solve N) (ht : TermSim solve N var term) (p e m : Nat) (ei : IVec) (s t) :
    NSim solve N (cFrobTermND solve N var term p e m ei s t) (frobTermND var solve N p e m ei s t) := by
  rw [cFrobTermND, frobTermND]
  refine NSim.bind (NSim.pureRes _) (fun v => NSim.bind (ht _ _ _ _) (fun r => nsim_ite (fun _ => NSim.pure _) (fun _ =>
    nsim_ite (fun _ => NSim.pureRes _) (fun _ => NSim.bind (NSim.pureRes _) (fun _ => NSim.bind (nsim_cok' hc _) (fun _ =>
    NSim.pureRes _))))))

theorem nsim_frobPassND (hc : CokEq solve N) (ht : TermSim solve N var term) (p : Nat) (T) (ei : IVec) (m prec e : Nat) (st) :
    NSim solve N (cFrobPassND solve N var term p T ei m prec e st) (frobPassND var solve N p T ei m prec e st) :=
  NSim.bind (NSim.pureRes _) (fun _ => NSim.bind (nsim_foldlM (fun s t => nsim_frobTermND hc ht _ _ _ _ _ _) _ _) (fun _ =>
    NSim.pure _))

theorem nsim_frobFunND (hc : CokEq solve N) (ht : TermSim solve N var term) (scale) (p : Nat) (T) (coord prec : Nat) :
    NSim solve N (cFrobFunND solve N var term scale p T coord prec) (frobFunND var scale solve N p T coord prec) := by
  rw [cFrobFunND, frobFunND]
  refine NSim.bind (NSim.pureRes _) (fun _ => NSim.bind (NSim.pureRes _) (fun ei => NSim.bind (NSim.pureRes _) (fun T' =>
    nsim_ite (fun _ => NSim.pureRes _) (fun _ => ?_))))
  simp only [frobCoreND, bind_assoc, pure_bind]
  exact NSim.bind (nsim_downTo (fun e st => nsim_frobPassND hc ht _ _ _ _ _ _ _) _ _) (fun _ => NSim.pureRes _)

end

theorem nsim_frobIterND (hc : CokEq solve N) (sm : Bool) (p : Nat) (prec s i) :
    NSim solve N (cFrobIterND solve N sm p prec s i) (frobIterND solve N p prec s i) :=
  NSim.bind (NSim.pureRes _) (fun _ => nsim_ite (fun _ => NSim.pureRes _) (fun _ => NSim.bind (NSim.pureRes _) (fun _ =>
    nsim_ite (fun _ => NSim.bind (nsim_frobFunND hc (termSim_flint sm p) _ _ _ _ _) (fun _ => NSim.pureRes _))
      (fun _ => NSim.pure _))))

/-- `compute_everything_ND(J, ND_ZZ)` without dictionaries. -/
def everythingND (solve : Solver (ZMod q)) (N : ND (ZMod q)) (J : Bool) : Res PUnit := do
  if J then do
    let _ ← JCall.value solve N.toDR .everything
  let Ld ← N.list N.d
  Ld.forM (everyND solve N)

theorem nsim_everything (sm J ndZZ : Bool) :
    NSim solve N (cEverythingND solve N sm J ndZZ) (everythingND solve N J) := by
  have hrest : NSim solve N (do
      let Ld ← NM.pureRes (N.list N.d)
      Ld.forM (cEveryND solve N sm ndZZ) : NM q PUnit) (do
      let Ld ← N.list N.d
      Ld.forM (everyND solve N)) :=
    NSim.bind (NSim.pureRes _) (fun Ld => nsim_forM (fun u => nsim_every sm ndZZ u) Ld)
  rw [cEverythingND, everythingND]
  cases J with
  | false => simpa using hrest
  | true =>
    have h1 : NSim solve N (do
        let _ ← NM.liftJ (JCall.run solve N.toDR sm .everything)
        let Ld ← NM.pureRes (N.list N.d)
        Ld.forM (cEveryND solve N sm ndZZ) : NM q PUnit) (do
        let _ ← JCall.value solve N.toDR .everything
        let Ld ← N.list N.d
        Ld.forM (everyND solve N)) := NSim.bind (NSim.liftJ (sim_call sm _)) (fun _ => hrest)
    have e : (do
        let _ ← NM.liftJ (JCall.run solve N.toDR sm .everything)
        let Ld ← NM.pureRes (N.list N.d)
        Ld.forM (cEveryND solve N sm ndZZ) : NM q PUnit) = (do
        NM.liftJ (cEverythingJ solve N.toDR sm)
        let Ld ← NM.pureRes (N.list N.d)
        Ld.forM (cEveryND solve N sm ndZZ) : NM q PUnit) := by
      funext st
      show (NM.liftJ (JCall.run solve N.toDR sm .everything) >>= _) st = (NM.liftJ (cEverythingJ solve N.toDR sm) >>= _) st
      have : JCall.run solve N.toDR sm .everything = (do cEverythingJ solve N.toDR sm; pure .unit : JM q _) := rfl
      rw [this]
      cases hj : cEverythingJ solve N.toDR sm st.j with
      | error e =>
        rw [NM.bind_error (e := e) (by rw [NM.liftJ.eq_def, JM.bind_error hj]), NM.bind_error (e := e)
          (by rw [NM.liftJ.eq_def, hj])]
      | ok x =>
        obtain ⟨_, j'⟩ := x
        rw [NM.bind_ok (a := JOut.unit) (st' := { st with j := j' }) (by rw [NM.liftJ.eq_def, JM.bind_ok hj]; rfl),
          NM.bind_ok (a := ()) (st' := { st with j := j' }) (by rw [NM.liftJ.eq_def, hj])]
    rw [e] at h1
    simpa using h1

theorem nsim_frobMatrixND (hc : CokEq solve N) (sm : Bool) (p : Nat) (pre : Bool) (order) (T) (prec) :
    NSim solve N (cFrobMatrixND solve N sm p pre order T prec) (do
      check (decide (N.n = prec.length))
      if pre then do
        let Ld ← N.list N.d
        Ld.forM (everyND solve N)
      frobMatrixND solve N p pre order T prec) := by
  have hrest : NSim solve N (do
      let T0 ← NM.pureRes (frobPrepare pre N.f T prec)
      let s ← order.foldlM (cFrobIterND solve N sm p prec) (T0, fun _ => CVec.mk' N.basis.length (fun _ => 0))
      pure ((⟨N.basis.length, N.basis.length, fun r c => (s.2 c).e r⟩ : CMat (ZMod q)), s.1) : NM q _) (do
      let T0 ← frobPrepare pre N.f T prec
      let s ← order.foldlM (frobIterND solve N p prec) (T0, fun _ => CVec.mk' N.basis.length (fun _ => 0))
      pure ((⟨N.basis.length, N.basis.length, fun r c => (s.2 c).e r⟩ : CMat (ZMod q)), s.1)) :=
    NSim.bind (NSim.pureRes _) (fun _ => NSim.bind (nsim_foldlM (fun s i => nsim_frobIterND hc sm p prec s i) _ _)
      (fun _ => NSim.pure _))
  rw [cFrobMatrixND]
  refine NSim.bind' (NSim.pureRes _) (fun _ h1 => ?_)
  have e : frobMatrixND solve N p pre order T prec = (do
      let T0 ← frobPrepare pre N.f T prec
      let s ← order.foldlM (frobIterND solve N p prec) (T0, fun _ => CVec.mk' N.basis.length (fun _ => 0))
      pure ((⟨N.basis.length, N.basis.length, fun r c => (s.2 c).e r⟩ : CMat (ZMod q)), s.1)) := by
    rw [frobMatrixND, h1, Res.bind_ok]
  rw [e]
  cases pre with
  | false => simpa using hrest
  | true =>
    have h2 := NSim.bind (solve := solve) (N := N) (nsim_everything sm false false) (fun _ => hrest)
    rw [everythingND] at h2
    simpa using h2

theorem nsim_call (hc : CokEq solve N) (sm : Bool) (c : NDCall q) :
    NSim solve N (c.run solve N sm) (c.value solve N) := by
  cases c with
  | base c => exact NSim.bind (NSim.liftJ (sim_call sm c)) (fun _ => NSim.pure _)
  | solve l => exact NSim.bind (nsim_solveND l) (fun _ => NSim.pure _)
  | mat u v => exact NSim.bind (nsim_getRedND u v) (fun _ => NSim.pure _)
  | matZ u v => exact NSim.bind (nsim_getRedNDZ sm u v) (fun _ => NSim.pure _)
  | red u v G => exact NSim.bind (nsim_reduceND u v G) (fun _ => NSim.pure _)
  | redPoly u v k G => exact NSim.bind (nsim_reduceNDPoly sm u v k G) (fun _ => NSim.pure _)
  | redZ u v G => exact NSim.bind (nsim_reduceNDZ sm u v G) (fun _ => NSim.pure _)
  | redPolyZ u v k G => exact NSim.bind (nsim_reduceNDPolyZ sm u v k G) (fun _ => NSim.pure _)
  | polyFlint u v => exact NSim.bind (nsim_getNDPolyZ sm u v) (fun _ => NSim.pure _)
  | incl u l => exact NSim.bind (nsim_incl u l) (fun _ => NSim.pure _)
  | cok u => exact NSim.bind (nsim_cok' hc u) (fun _ => NSim.pure _)
  | monomial u => exact NSim.bind (nsim_monomialND hc u) (fun _ => NSim.pure _)
  | everything J ndZZ =>
    have h := NSim.bind (solve := solve) (N := N) (nsim_everything sm J ndZZ) (fun _ => NSim.pure (NDOut.unit (q := q)))
    have e : (NDCall.everything J ndZZ : NDCall q).value solve N =
        (everythingND solve N J >>= fun _ => .ok NDOut.unit) := by
      rw [NDCall.value, everythingND]
      cases J <;> simp [bind_assoc]
    rw [e]; exact h
  | frobZ p kind T c k =>
    exact NSim.bind (nsim_frobFunND hc (termSim_Z sm p kind) _ _ _ _ _) (fun _ => NSim.pure _)
  | frobP p b T c k =>
    exact NSim.bind (nsim_frobFunND hc (termSim_P sm p b) _ _ _ _ _) (fun _ => NSim.pure _)
  | frobFlint p T c k =>
    exact NSim.bind (nsim_frobFunND hc (termSim_flint sm p) _ _ _ _ _) (fun _ => NSim.pure _)
  | frobMatrix p pre o T k =>
    have h := NSim.bind (solve := solve) (N := N) (nsim_frobMatrixND hc sm p pre o T k)
      (fun x => NSim.pure (NDOut.frobMat (q := q) x))
    simp only [bind_assoc] at h
    rw [NDCall.value]
    cases pre with
    | false => simpa [NDCall.run] using h
    | true => simpa [NDCall.run] using h

theorem nsim_calls (hc : CokEq solve N) (sm : Bool) (cs : List (NDCall q)) :
    NSim solve N (runCallsND solve N sm cs) (cs.mapM (fun c => c.value solve N)) := by
  induction cs with
  | nil => exact NSim.pure _
  | cons c cs ih =>
    rw [runCallsND, List.mapM_cons]
    exact NSim.bind (nsim_call hc sm c) (fun x => NSim.bind ih (fun xs => NSim.pure _))

end Verif
