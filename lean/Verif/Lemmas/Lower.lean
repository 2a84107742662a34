import Verif.Lemmas.PathIndep
import Verif.Lemmas.NDInit
import Verif.Lemmas.Scaled
import Verif.Lemmas.Smooth
import Verif.Props.SolveSystem

/-! Passing from precision `K'` to a lower precision `K`: the constructors, the relations and the Frobenius columns. -/

namespace Verif

open Spec MvPolynomial

section maps

variable {R S : Type} [CommRing R] [CommRing S]

/-- The same polynomial with the coefficients mapped. -/
def coeffMap (φ : R → S) (f : MonMap R) : MonMap S := f.map (fun e => (e.1, φ e.2))

/-- The object with the coefficients of `f` mapped; all other fields do not involve the ring. -/
def DR.mapC (φ : R → S) (D : DR R) : DR S := ⟨D.n, D.d, coeffMap φ D.f, D.tupleList, D.tupleDict, D.basis, D.basisDict⟩

def ND.mapC (φ : R → S) (D : ND R) : ND S := ⟨D.toDR.mapC φ, D.ndBasis, D.ndDict⟩

def CMat.mapE (φ : R → S) (M : CMat R) : CMat S := ⟨M.rows, M.cols, fun i j => φ (M.e i j)⟩

theorem bind_fst2 {α β β' γ : Type} {x : Res (α × β)} {y : Res (α × β')} (h : x.map Prod.fst = y.map Prod.fst) (g : α → Res γ) :
    (x >>= fun a => g a.1) = (y >>= fun a => g a.1) := by
  cases x <;> cases y <;> simp only [Except.map] at h
  · cases h; rfl
  · cases h
  · cases h
  · simp only [Res.bind_ok]; rw [Except.ok.inj h]

theorem forRange_nat {σ τ : Type} (φ : σ → τ) {f : ℕ → σ → Res σ} {g : ℕ → τ → Res τ}
    (h : ∀ i s, g i (φ s) = (f i s).map φ) : ∀ (k : ℕ) (s : σ), forRange k (φ s) g = (forRange k s f).map φ
  | 0, _ => rfl
  | k + 1, s => by
      rw [forRange, forRange, forRange_nat φ h k s]
      cases forRange k s f with
      | error e => rfl
      | ok t => exact h k t

theorem foldlM_nat {σ τ α β : Type} (φ : σ → τ) (a : α → β) {f : σ → α → Res σ} {g : τ → β → Res τ}
    (h : ∀ s x, g (φ s) (a x) = (f s x).map φ) : ∀ (l : List α) (s : σ),
    (l.map a).foldlM g (φ s) = (l.foldlM f s).map φ
  | [], _ => rfl
  | x :: l, s => by
      rw [List.map_cons, List.foldlM_cons, List.foldlM_cons, h]
      cases f s x with
      | error e => rfl
      | ok t => exact foldlM_nat φ a h l t

theorem put_mapE (φ : R → S) (M : CMat R) (i j : ℕ) (x : R) :
    (M.mapE φ).put i j (φ x) = (M.put i j x).map (CMat.mapE φ) := by
  unfold CMat.put
  by_cases h : i < M.rows ∧ j < M.cols
  · rw [if_pos h, if_pos (show i < (M.mapE φ).rows ∧ j < (M.mapE φ).cols from h)]
    simp only [Except.map, CMat.mapE]
    congr 1
    apply CMat.ext
    · rfl
    · rfl
    · funext a b
      dsimp only
      split <;> rfl
  · rw [if_neg h, if_neg (show ¬ (i < (M.mapE φ).rows ∧ j < (M.mapE φ).cols) from h)]
    rfl

theorem mk_zero_mapE (φ : R →+* S) (a b : ℕ) :
    (CMat.mk' a b (fun _ _ => (0 : S))) = (CMat.mk' a b (fun _ _ => (0 : R))).mapE φ := by
  apply CMat.ext
  · rfl
  · rfl
  · funext i j
    simp [CMat.mk', CMat.mapE]

theorem matrixJCol_mapE (φ : R →+* S) (f : MonMap R) (dictL : MonMap ℕ) (t : IVec) (i col : ℕ) (M : CMat R) :
    matrixJCol (coeffMap φ f) dictL t i col (M.mapE φ) = (matrixJCol f dictL t i col M).map (CMat.mapE φ) := by
  unfold matrixJCol coeffMap
  refine foldlM_nat (CMat.mapE φ) _ (fun M e => ?_) f M
  dsimp only
  split
  · cases diffVec e.1 i with
    | error x => rfl
    | ok df =>
      simp only [Res.bind_ok]
      cases addVec df t with
      | error x => rfl
      | ok mon =>
        simp only [Res.bind_ok]
        cases look dictL mon with
        | error x => rfl
        | ok row =>
          simp only [Res.bind_ok]
          rw [← put_mapE, map_mul, map_intCast]
  · rfl

theorem matrixNDCol_mapE (φ : R →+* S) (f : MonMap R) (dictL : MonMap ℕ) (t : IVec) (i col : ℕ) (M : CMat R) :
    matrixNDCol (coeffMap φ f) dictL t i col (M.mapE φ) = (matrixNDCol f dictL t i col M).map (CMat.mapE φ) := by
  unfold matrixNDCol coeffMap
  refine foldlM_nat (CMat.mapE φ) _ (fun M e => ?_) f M
  dsimp only
  cases addVec e.1 t with
  | error x => rfl
  | ok mon =>
    simp only [Res.bind_ok]
    cases look dictL mon with
    | error x => rfl
    | ok row =>
      simp only [Res.bind_ok]
      rw [← put_mapE, map_mul, map_intCast]

theorem matrixJ_mapC (φ : R →+* S) (D : DR R) (l : ℤ) : matrixJ (D.mapC φ) l = (matrixJ D l).map (CMat.mapE φ) := by
  unfold matrixJ
  show (if l < (D.d : ℤ) - 1 then _ else _) = _
  split
  · show (D.list l >>= _) = _
    cases D.list l with
    | error x => rfl
    | ok L =>
      simp only [Res.bind_ok, Res.pure_eq]
      rw [mk_zero_mapE φ]; rfl
  · show (D.list l >>= _) = _
    cases D.list l with
    | error x => rfl
    | ok L =>
      simp only [Res.bind_ok]
      show (D.list (l - (D.d - 1)) >>= _) = _
      cases D.list (l - (D.d - 1)) with
      | error x => rfl
      | ok S' =>
        simp only [Res.bind_ok]
        show (D.dict l >>= _) = _
        cases D.dict l with
        | error x => rfl
        | ok dictL =>
          simp only [Res.bind_ok]
          rw [mk_zero_mapE φ]
          exact forRange_nat _ (fun i M => forRange_nat _ (fun j M => matrixJCol_mapE φ _ _ _ _ _ _) _ _) _ _

theorem matrixND_mapC (φ : R →+* S) (D : DR R) (l : ℤ) : matrixND (D.mapC φ) l = (matrixND D l).map (CMat.mapE φ) := by
  unfold matrixND
  show (if l < (D.d : ℤ) then _ else _) = _
  split
  · show (D.list l >>= _) = _
    cases D.list l with
    | error x => rfl
    | ok L =>
      simp only [Res.bind_ok, Res.pure_eq]
      rw [mk_zero_mapE φ]; rfl
  · show (D.list l >>= _) = _
    cases D.list l with
    | error x => rfl
    | ok L =>
      simp only [Res.bind_ok]
      show (D.list (l - D.d) >>= _) = _
      cases D.list (l - D.d) with
      | error x => rfl
      | ok S' =>
        simp only [Res.bind_ok]
        show (D.dict l >>= _) = _
        cases D.dict l with
        | error x => rfl
        | ok dictL =>
          simp only [Res.bind_ok]
          rw [mk_zero_mapE φ]
          exact forRange_nat _ (fun i M => forRange_nat _ (fun j M => matrixNDCol_mapE φ _ _ _ _ _ _) _ _) _ _

/-- The constructor with mapped coefficients, for solvers that choose the same rows. -/
theorem init_mapC (φ : R →+* S) {s : Solver R} {s' : Solver S}
    (h : ∀ T, (s' (T.mapE φ)).map Prod.fst = (s T).map Prod.fst) (p : ℕ) (f : MonMap R) :
    DR.init s' p (coeffMap φ f) = (DR.init s p f).map (DR.mapC φ) := by
  have hJ : ∀ D l, (solveJ s' (D.mapC φ) l).map Prod.fst = (solveJ s D l).map Prod.fst := by
    intro D l
    rw [solveJ, solveJ, matrixJ_mapC]
    cases matrixJ D l with
    | error e => rfl
    | ok T => exact h T
  have hI : ∀ D : DR R, initBasis s' (D.mapC φ) = initBasis s D := by
    intro D
    unfold initBasis
    show forRange D.n _ _ = _
    congr 1
    funext i acc
    exact bind_fst2 (hJ D _) (fun B : List ℕ => do
      let L ← D.list (((i : Int) + 1) * D.d - (D.n + 1))
      if ((i : Int) + 1) * D.d - (D.n + 1) < 0 then .error .ub
      else
        check (decide (hilbertJ D.d D.n (((i : Int) + 1) * D.d - (D.n + 1)).toNat = B.length))
        let mons ← B.mapM (fun b => aget L b)
        pure (acc ++ mons))
  cases f with
  | nil => rfl
  | cons e f =>
    obtain ⟨k, c⟩ := e
    unfold DR.init
    simp only [coeffMap, List.map_cons]
    split
    · rfl
    · cases check (decide (k.length - 1 < (sumVec k).toNat)) with
      | error e => rfl
      | ok _ =>
      simp only [Res.bind_ok]
      cases check (decide ((sumVec k).toNat % p ≠ 0)) with
      | error e => rfl
      | ok _ =>
      simp only [Res.bind_ok]
      cases tupleTables (k.length - 1) (sumVec k).toNat with
      | error e => rfl
      | ok tl =>
      simp only [Res.bind_ok]
      have hJ' := hJ ⟨k.length - 1, (sumVec k).toNat, (k, c) :: f, tl, tl.map buildDict, [], []⟩
        (DR.topLevel (⟨k.length - 1, (sumVec k).toNat, (k, c) :: f, tl, tl.map buildDict, [], []⟩ : DR R))
      have hI' := hI ⟨k.length - 1, (sumVec k).toNat, (k, c) :: f, tl, tl.map buildDict, [], []⟩
      have hg := bind_fst2 hJ' (fun B : List ℕ => do
        check (decide (B.length = 0))
        let basis ← initBasis s ⟨k.length - 1, (sumVec k).toNat, (k, c) :: f, tl, tl.map buildDict, [], []⟩
        pure (⟨k.length - 1, (sumVec k).toNat, coeffMap φ ((k, c) :: f), tl, tl.map buildDict, basis, buildDict basis⟩ : DR S))
      rw [← hI'] at hg
      refine hg.trans ?_
      rw [hI']
      cases solveJ s (⟨k.length - 1, (sumVec k).toNat, (k, c) :: f, tl, tl.map buildDict, [], []⟩ : DR R)
        (DR.topLevel (⟨k.length - 1, (sumVec k).toNat, (k, c) :: f, tl, tl.map buildDict, [], []⟩ : DR R)) with
      | error e => rfl
      | ok BU =>
        simp only [Res.bind_ok]
        cases check (decide (BU.1.length = 0)) with
        | error e => rfl
        | ok _ =>
        simp only [Res.bind_ok]
        cases initBasis s (⟨k.length - 1, (sumVec k).toNat, (k, c) :: f, tl, tl.map buildDict, [], []⟩ : DR R) with
        | error e => rfl
        | ok _ => rfl

theorem initND_mapC (φ : R →+* S) {s : Solver R} {s' : Solver S}
    (h : ∀ T, (s' (T.mapE φ)).map Prod.fst = (s T).map Prod.fst) (p : ℕ) (f : MonMap R) :
    ND.init s' p (coeffMap φ f) = (ND.init s p f).map (ND.mapC φ) := by
  have hJ : ∀ D l, (solveND s' (D.mapC φ) l).map Prod.fst = (solveND s D l).map Prod.fst := by
    intro D l
    rw [solveND, solveND, matrixND_mapC]
    cases matrixND D l with
    | error e => rfl
    | ok T => exact h T
  have hI : ∀ D : DR R, initBasisND s' (D.mapC φ) = initBasisND s D := by
    intro D
    unfold initBasisND
    show forRange (D.n + 1) _ _ = _
    congr 1
    funext i acc
    exact bind_fst2 (hJ D _) (fun B : List ℕ => do
      let L ← D.list ((i : Int) * D.d)
      check (decide (hilbertND D.d D.n (i * D.d) = B.length))
      let mons ← B.mapM (fun b => aget L b)
      pure (acc ++ mons))
  unfold ND.init
  rw [init_mapC φ h]
  cases DR.init s p f with
  | error e => rfl
  | ok D =>
    simp only [Except.map, Res.bind_ok]
    rw [hI D]
    have hg := bind_fst2 (hJ D D.topND) (fun B : List ℕ => do
      check (decide (B.length = 0))
      let basis ← initBasisND s D
      check (decide (basis.length = D.d ^ D.n))
      pure (⟨D.mapC φ, basis, buildDict basis⟩ : ND S))
    refine hg.trans ?_
    cases solveND s D D.topND with
    | error e => rfl
    | ok BU =>
      simp only [Res.bind_ok]
      cases check (decide (BU.1.length = 0)) with
      | error e => rfl
      | ok _ =>
      simp only [Res.bind_ok]
      cases initBasisND s D with
      | error e => rfl
      | ok basis =>
        simp only [Res.bind_ok]
        cases check (decide (basis.length = D.d ^ D.n)) with
        | error e => rfl
        | ok _ => rfl

/-! ### The relations and the columns -/

theorem toPoly_coeffMap (φ : R →+* S) (n : ℕ) : ∀ f : MonMap R,
    toPoly n (coeffMap φ f) = MvPolynomial.map φ (toPoly n f)
  | [] => by simp [coeffMap, toPoly_nil]
  | (k, c) :: f => by
      have := toPoly_coeffMap φ n f
      rw [coeffMap, List.map_cons, toPoly_cons, toPoly_cons, map_add, map_monomial]
      rw [coeffMap] at this
      rw [this]

theorem map_xpow (φ : R →+* S) {n : ℕ} (a : Fin (n + 1) → ℤ) : MvPolynomial.map φ (xpow R a) = xpow S a := by
  unfold xpow
  split
  · rw [map_monomial, map_one]
  · rw [map_zero]

theorem map_combo (φ : R →+* S) (n : ℕ) (L : List IVec) (c : ℕ → R) :
    MvPolynomial.map φ (combo n L c) = combo n L (fun k => φ (c k)) := by
  simp only [combo, map_sum, smul_eq_C_mul, map_mul, map_C, map_xpow]

theorem map_scaledExact (φ : R →+* S) {n d : ℕ} (f w : MvPolynomial (Fin (n + 1)) R) (h : w ∈ scaledExact f d) :
    MvPolynomial.map φ w ∈ scaledExact (MvPolynomial.map φ f) d := by
  unfold scaledExact at h
  induction h using Submodule.span_induction with
  | mem w h =>
    obtain ⟨m, e, i, F, hm, he, hF, rfl⟩ := h
    refine Submodule.subset_span ⟨m, e, i, MvPolynomial.map φ F, hm, he, hF.map φ, ?_⟩
    rw [map_sub, map_mul, pderiv_map, pderiv_map]
  | zero => rw [map_zero]; exact Submodule.zero_mem _
  | add x y _ _ hx hy => rw [map_add]; exact Submodule.add_mem _ hx hy
  | smul a x _ hx => rw [smul_eq_C_mul, map_mul, map_C, ← smul_eq_C_mul]; exact Submodule.smul_mem _ _ hx

theorem map_scaledSeries (φ : R →+* S) {n : ℕ} (f : MvPolynomial (Fin (n + 1)) R) (p m N : ℕ) (b : Fin (n + 1) → ℤ) :
    MvPolynomial.map φ (scaledSeries f p m N b) = scaledSeries (MvPolynomial.map φ f) p m N b := by
  simp only [scaledSeries, map_sum, smul_eq_C_mul, map_mul, map_C, map_xpow, map_intCast, map_natCast, map_expand, map_pow]

/-- A Frobenius column stays one when all coefficients are mapped. -/
theorem FrobColumn_map (φ : R →+* S) {n : ℕ} {f : MvPolynomial (Fin (n + 1)) R} {d p : ℕ} {basis : List IVec} {m N : ℕ}
    {b : Fin (n + 1) → ℤ} {F : ℕ → R} (h : FrobColumn f d p basis m N b F) :
    FrobColumn (MvPolynomial.map φ f) d p basis m N b (fun k => φ (F k)) := by
  obtain ⟨c, h1, h2⟩ := h
  refine ⟨fun k => φ (c k), ?_, fun k hk => ?_⟩
  · have := map_scaledExact φ _ _ h1
    rwa [map_sub, map_scaledSeries, map_combo] at this
  · have := congrArg φ (h2 k hk)
    rwa [map_mul, map_mul, map_natCast, map_natCast] at this

end maps

/-! ### The solver -/

section solver

variable {p K K' : ℕ} [hprime : Fact p.Prime]

theorem padic_fst {la : LinAlg (ZMod p)} (flint : Bool) (T : CMat (ZMod (p ^ K))) (precision : ℕ) :
    (solveSystemPadic la flint T precision).map Prod.fst =
      (solveSystemZZp la true (T.map (fun x => (x.val : ZMod p)))).map Prod.fst := by
  unfold solveSystemPadic
  by_cases h : T.cols = 0
  · rw [if_pos h, solveSystemZZp, if_pos (show (T.map (fun x => (x.val : ZMod p))).cols = 0 from h)]
    rfl
  · rw [if_neg h]
    cases solveSystemZZp la true (T.map (fun x => (x.val : ZMod p))) with
    | error e => rfl
    | ok BU =>
      obtain ⟨B, U⟩ := BU
      simp only [Res.bind_ok]
      split <;> rfl

/-- The rows chosen do not depend on the precision. -/
theorem padic_lower (hK : 1 ≤ K) (hKK : p ^ K ∣ p ^ K') {la la' : LinAlg (ZMod p)} (hla : LinAlgOK la) (hla' : LinAlgOK la')
    (flint flint' : Bool) (prec prec' : ℕ) (hprec' : K' ≤ prec') (T : CMat (ZMod (p ^ K'))) :
    (padicSolver p K la flint prec (T.mapE (ZMod.castHom hKK (ZMod (p ^ K))))).map Prod.fst =
      (padicSolver p K' la' flint' prec' T).map Prod.fst := by
  have h0 : NeZero (p ^ K) := ⟨pow_ne_zero _ hprime.out.ne_zero⟩
  have h1 : NeZero (p ^ K') := ⟨pow_ne_zero _ hprime.out.ne_zero⟩
  have hp : p ∣ p ^ K := dvd_pow_self p (by omega)
  have e : (T.mapE (ZMod.castHom hKK (ZMod (p ^ K)))).map (fun x => (x.val : ZMod p)) = T.map (fun x => (x.val : ZMod p)) := by
    apply CMat.ext
    · rfl
    · rfl
    · funext i j
      simp only [CMat.map, CMat.mapE, CMat.mk']
      rw [cast_val hp, cast_val (hp.trans hKK)]
      congr 1
      exact RingHom.congr_fun (RingHom.ext_zmod ((ZMod.castHom hp (ZMod p)).comp (ZMod.castHom hKK (ZMod (p ^ K))))
        (ZMod.castHom (hp.trans hKK) (ZMod p))) _
  obtain ⟨B, U, e1, -⟩ := C20_padic la hla flint' T prec' hprec'
  obtain ⟨B', U', e2, -⟩ := C20_padic la' hla' flint' T prec' hprec'
  have hB := (C20_same_basis la la' hla hla' flint' flint' T prec' hprec' B B' U U' e1 e2).1
  have h3 : (solveSystemPadic la flint' T prec').map Prod.fst = (solveSystemPadic la' flint' T prec').map Prod.fst := by
    rw [e1, e2]; simp only [Except.map, hB]
  show (solveSystemPadic la flint _ prec).map Prod.fst = (solveSystemPadic la' flint' T prec').map Prod.fst
  rw [← h3, padic_fst, padic_fst, e]

end solver

end Verif
