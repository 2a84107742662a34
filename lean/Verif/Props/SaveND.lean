import Verif.Model.SaveND
import Verif.Props.Save
import Verif.Props.ND

/-!
Property C62: saving a non-degenerate object and loading the file.
-/

namespace Verif

open Spec

variable {p N n d : Nat}

/-- The loaded object has the state of the saved one. -/
structure Spec.SameStateND {q : Nat} (D : ND (ZMod q)) (p N : Nat) (verbose mem : Bool) (X : LoadedND p q) : Prop
    extends SameState D.toDR p N verbose mem X.toLoaded where
  hilbN : X.hilbertND.length = (((D.d : Int) - 1) * (D.n + 1) + 1).toNat
  hilbNVal : ∀ k, k < X.hilbertND.length → X.hilbertND[k]? =
    some (((∑ j ∈ Finset.range D.d, (Polynomial.X : Polynomial ℤ) ^ j) ^ (D.n + 1)).coeff k)
  ndBasis : X.ndBasis = D.ndBasis
  ndDict : X.ndDict = D.ndDict

/-- The loaded dictionary holds the pair `get_solve_ND` returned for degree `l` when the object was saved. -/
def Spec.PairLoadedND {q : Nat} (solve : Solver (ZMod q)) (D : DR (ZMod q)) (X : LoadedND p q) (l : Int) : Prop :=
  ∃ B U V, solveND solve D l = .ok (B, U) ∧ X.solvedND l = some (B.map Int.ofNat, V) ∧ SameMat U V

theorem solveND_rows {R : Type} [CommRing R] [Nontrivial R] {solve : Solver R} (hsolve : SolverOK solve) {D : DR R}
    (hD : DROk D) (l : Int) (h0 : 0 ≤ l) (h1 : l ≤ (D.n + 1) * D.d) :
    ∃ L B U, D.list l = .ok L ∧ solveND solve D l = .ok (B, U) ∧ (∀ b ∈ B, b < L.length) ∧ 1 ≤ U.rows := by
  by_cases hl : l < (D.d : Int)
  · obtain ⟨L, hL, eL, eM⟩ := matrixND_small hD l h0 hl
    obtain ⟨B, U, eU, hU⟩ := hsolve (CMat.mk' L.length 0 (fun _ _ => 0))
    refine ⟨L, B, U, eL, by rw [solveND, eM]; exact eU, hU.lt, rows_pos hU ?_⟩
    exact List.length_pos_of_mem ((hL.2 (l :: List.replicate D.n 0)).2 (isTuple_first D.n l h0))
  · obtain ⟨L, S, T, hL, -, eL, -, eT, hr, -⟩ := matrixND_ok hD l (by omega) h1
    obtain ⟨B, U, eU, hU⟩ := hsolve T
    refine ⟨L, B, U, eL, by rw [solveND, eT]; exact eU, fun b hb => by rw [← hr]; exact hU.lt b hb, rows_pos hU ?_⟩
    rw [hr]
    exact List.length_pos_of_mem ((hL.2 (l :: List.replicate D.n 0)).2 (isTuple_first D.n l h0))

theorem levelND_bounds {n d i : Nat} (hd : n < d) (hi : i < n + 1) :
    (0 : Int) ≤ (i : Int) * d ∧ (i : Int) * d ≤ (n + 1) * d ∧ (i : Int) * d < ((d : Int) - 1) * (n + 1) + 1 := by
  have h : (i : Int) * d ≤ n * d := by apply mul_le_mul_of_nonneg_right <;> omega
  refine ⟨by positivity, by nlinarith, by nlinarith⟩

theorem topND_bounds {n d : Nat} (hd : n < d) :
    (0 : Int) ≤ ((d : Int) - 1) * (n + 1) + 1 ∧ ((d : Int) - 1) * (n + 1) + 1 ≤ (n + 1) * d := by
  constructor
  · have : (0 : Int) ≤ ((d : Int) - 1) * (n + 1) := mul_nonneg (by omega) (by omega)
    omega
  · nlinarith

theorem saved_loaded_nd [NeZero p] [Fact (1 < p ^ N)] {solve : Solver (ZMod (p ^ N))} {f : MonMap (ZMod (p ^ N))}
    {D : ND (ZMod (p ^ N))} (hC : ConstructedND solve p f n d D) (verbose mem : Bool) :
    ∃ s X, saveTextND p solve N verbose mem D = .ok s ∧ loadTextND p (p ^ N) s = .ok X ∧
      loadText p (p ^ N) s = .ok X.toLoaded ∧
      SameStateND D p N verbose mem X ∧
      (∀ i : Nat, i < D.n → PairLoaded solve D.toDR X.toLoaded (((i : Int) + 1) * D.d - (D.n + 1))) ∧
      PairLoaded solve D.toDR X.toLoaded (((D.d : Int) - 2) * (D.n + 1) + 1) ∧
      (∀ i : Nat, i < D.n + 1 → PairLoadedND solve D.toDR X ((i : Int) * D.d)) ∧
      PairLoadedND solve D.toDR X (((D.d : Int) - 1) * (D.n + 1) + 1) ∧
      ∃ L, IsTable D.n D.d L ∧
        X.f = ((L.filter (fun t => decide (((naive p (MonMap.get f t) : Nat) : ZMod p) ≠ 0))).map
          (fun t => (t, ((naive p (MonMap.get f t) : Nat) : ZMod (p ^ N))))) ∧
        X.fbar = ((L.filter (fun t => decide (((naive p (MonMap.get f t) : Nat) : ZMod p) ≠ 0))).map
          (fun t => (t, ((naive p (MonMap.get f t) : Nat) : ZMod p)))) := by
  have hCJ := C45_base_ND hC
  obtain ⟨en, ed, hI⟩ := hC.init
  have hok := hI.base.ok
  have hd := hok.hd
  haveI : NeZero (p ^ N) := ⟨by have := (Fact.out : 1 < p ^ N); omega⟩
  haveI : Nontrivial (ZMod (p ^ N)) := ZMod.nontrivial _
  have hpair : ∀ i, i < D.n + 1 → ∃ LL B U, D.list ((i : Int) * D.d) = .ok LL ∧
      solveND solve D.toDR ((i : Int) * D.d) = .ok (B, U) ∧ (∀ b ∈ B, b < LL.length) ∧ 1 ≤ U.rows :=
    fun i hi => solveND_rows hC.solver hok _ (levelND_bounds hd hi).1 (levelND_bounds hd hi).2.1
  obtain ⟨Lt, Bt, Ut, -, eUt, -, hUt⟩ := solveND_rows hC.solver hok _ (topND_bounds hd).1 (topND_bounds hd).2
  obtain ⟨pt, hpt⟩ : ∃ pt : Nat → Str, pt = fun i : Nat =>
      match solveND solve D.toDR ((i : Int) * D.d) with
      | .ok BU => pairText BU
      | .error _ => [] := ⟨_, rfl⟩
  have hbody : ∃ body, forRange (D.n + 1) ([] : Str) (fun i acc => do
      let BU ← solveND solve D.toDR ((i : Int) * D.d)
      .ok (acc ++ pairText BU)) = .ok body ∧ body = (List.range (D.n + 1)).flatMap pt := by
    refine forRange_inv (fun k acc => acc = (List.range k).flatMap pt) rfl ?_
    rintro i acc hi rfl
    obtain ⟨LL, B, U, -, e, -⟩ := hpair i hi
    refine ⟨_, by rw [e, Res.bind_ok], ?_⟩
    rw [List.range_succ, List.flatMap_append, List.flatMap_singleton, hpt]
    simp only [e]
  obtain ⟨body, hbody, rfl⟩ := hbody
  have htail : saveTailND solve D.toDR = .ok (line (showVec showInt (hilbertNDList D.d D.n)) ++
      ((List.range (D.n + 1)).flatMap pt ++ pairText (Bt, Ut))) := by
    rw [saveTailND, hbody, Res.bind_ok, show solveND solve D.toDR D.topND = .ok (Bt, Ut) from eUt, Res.bind_ok]
  obtain ⟨s0, X0, hs0, hX0, hS, hpJ, htJ, L, hL, hf1, hf2⟩ := saved_head hCJ verbose mem
    (line (showVec showInt (hilbertNDList D.d D.n)) ++ ((List.range (D.n + 1)).flatMap pt ++ pairText (Bt, Ut)))
  -- the loop of the reader
  have hloop : ∃ st : LoadSt (p ^ N), forRange (D.n + 1)
      (('\n' :: ((List.range (D.n + 1)).flatMap pt ++ pairText (Bt, Ut)), fun _ => none, []) : LoadSt (p ^ N)) (fun i st => do
        let level : Int := (i : Int) * D.d
        let r ← readPair (p ^ N) st.1
        let h ← iget (hilbertNDList D.d D.n) level
        check (decide (h = r.1.1.length))
        let L ← iget D.tupleList level
        let mons ← r.1.1.mapM (fun b => iget L b)
        .ok ((r.2, fun l => if l = level then some r.1 else st.2.1 l, st.2.2 ++ mons) : LoadSt (p ^ N))) = .ok st ∧
      (st.1 = '\n' :: (((List.range (D.n + 1)).drop (D.n + 1)).flatMap pt ++ pairText (Bt, Ut)) ∧
        st.2.2 = (List.range (D.n + 1)).flatMap (ndBlock solve D.toDR) ∧
        ∀ i : Nat, i < D.n + 1 → ∃ B U V, solveND solve D.toDR ((i : Int) * D.d) = .ok (B, U) ∧
          st.2.1 ((i : Int) * D.d) = some (B.map Int.ofNat, V) ∧ SameMat U V) := by
    refine forRange_inv (fun k (st : LoadSt (p ^ N)) =>
      st.1 = '\n' :: (((List.range (D.n + 1)).drop k).flatMap pt ++ pairText (Bt, Ut)) ∧
        st.2.2 = (List.range k).flatMap (ndBlock solve D.toDR) ∧
        ∀ i : Nat, i < k → ∃ B U V, solveND solve D.toDR ((i : Int) * D.d) = .ok (B, U) ∧
          st.2.1 ((i : Int) * D.d) = some (B.map Int.ofNat, V) ∧ SameMat U V) ?_ ?_
    · exact ⟨rfl, rfl, fun i hi => by omega⟩
    · rintro i ⟨txt, dict, bas⟩ hi ⟨h1, h2, h3⟩
      obtain ⟨LL, B, U, eLL, e, hlt, hr⟩ := hpair i hi
      simp only at h1 h2 h3
      have hdrop : (List.range (D.n + 1)).drop i = i :: (List.range (D.n + 1)).drop (i + 1) := by
        rw [List.drop_eq_getElem_cons (by simpa using hi)]
        simp
      rw [hdrop, List.flatMap_cons, List.append_assoc] at h1
      have hpti : pt i = pairText (B, U) := by rw [hpt]; simp only [e]
      rw [hpti] at h1
      obtain ⟨V, hV, eV⟩ := readPair_ok (q := p ^ N) B U hr
        (((List.range (D.n + 1)).drop (i + 1)).flatMap pt ++ pairText (Bt, Ut))
      obtain ⟨b0, -, b2⟩ := levelND_bounds hd hi
      have hblk : ndBlock solve D.toDR i = B.map (fun b => LL.getD b []) := (hI.block i hi).eq B U LL e eLL
      have hcount := (hI.block i hi).count
      rw [hblk, List.length_map] at hcount
      have hlev : ((i : Int) * D.d).toNat = i * D.d := by
        rw [← Nat.cast_mul, Int.toNat_natCast]
      have hh : iget (hilbertNDList D.d D.n) ((i : Int) * D.d) = .ok (B.length : Int) := by
        rw [iget, if_neg (by omega), aget_of_lt _ _ (by simp only [hilbertNDList, List.length_map, List.length_range]; omega)]
        simp only [hilbertNDList, List.getElem_map, List.getElem_range]
        rw [hlev, hcount]
      have hmons : (B.map Int.ofNat).mapM (fun b => iget LL b) = .ok ((B.map Int.ofNat).map (fun b => LL.getD b.toNat [])) := by
        apply mapM_eq_ok
        intro b hb
        obtain ⟨b', hb', rfl⟩ := List.mem_map.1 hb
        have := hlt b' hb'
        show (if (b' : Int) < 0 then _ else _) = _
        rw [if_neg (by omega)]
        show aget LL b' = .ok (LL.getD b' [])
        rw [aget_of_lt _ _ this, getD_getElem LL _ b' this]
      refine ⟨(_, fun l => if l = (i : Int) * D.d then some (B.map Int.ofNat, V) else dict l,
        bas ++ (B.map Int.ofNat).map (fun b => LL.getD b.toNat [])), ?_, rfl, ?_, ?_⟩
      · simp only
        rw [h1, eV, Res.bind_ok]
        simp only
        rw [hh, Res.bind_ok, List.length_map, decide_eq_true rfl, check_true, Res.bind_ok]
        rw [show iget D.tupleList ((i : Int) * D.d) = .ok LL from eLL, Res.bind_ok, hmons, Res.bind_ok]
      · simp only
        rw [h2, List.range_succ, List.flatMap_append, List.flatMap_singleton, hblk, List.map_map]
        rfl
      · intro j hj
        by_cases hji : j = i
        · subst hji
          exact ⟨B, U, V, e, if_pos rfl, hV⟩
        · obtain ⟨B', U', V', e1, e2, e3⟩ := h3 j (by omega)
          refine ⟨B', U', V', e1, ?_, e3⟩
          simp only
          rw [if_neg, e2]
          intro hc
          have := mul_right_cancel₀ (by omega : (D.d : Int) ≠ 0) hc
          omega
  obtain ⟨⟨txt, dict, bas⟩, hloop, h1, h2, h3⟩ := hloop
  simp only at h1 h2 h3
  have hdropn : (List.range (D.n + 1)).drop (D.n + 1) = [] := by simp
  rw [hdropn, List.flatMap_nil, List.nil_append] at h1
  obtain ⟨Vt, hVt, eVt⟩ := readPair_ok (q := p ^ N) Bt Ut hUt []
  rw [List.append_nil] at eVt
  have hbas : bas = D.ndBasis := h2.trans hI.blocks.symm
  refine ⟨_, { X0 with
      hilbertND := hilbertNDList D.d D.n, ndBasis := bas, ndDict := buildDict bas,
      solvedND := fun l => if l = ((D.d : Int) - 1) * (D.n + 1) + 1 then some (Bt.map Int.ofNat, Vt) else dict l },
    by rw [saveTextND, hs0, Res.bind_ok, htail, Res.bind_ok], ?_, ?_, ⟨hS, ?_, ?_, hbas, ?_⟩, hpJ, htJ, ?_, ?_,
    L, hL, hf1, hf2⟩
  · rw [loadTextND, hX0, Res.bind_ok]
    simp only
    rw [readIntVec_nl, Res.bind_ok, hS.hn, hS.hd, hS.lists]
    simp only
    rw [hloop, Res.bind_ok]
    simp only
    rw [h1, eVt, Res.bind_ok, decide_eq_true (by rw [hbas]; exact hI.count), check_true, Res.bind_ok]
  · rw [loadText, hX0, Res.bind_ok]
  · simp [hilbertNDList]
  · intro k hk
    simp only at hk ⊢
    have hk' : k < (((D.d : Int) - 1) * (D.n + 1) + 1).toNat := by simpa [hilbertNDList] using hk
    rw [hilbertNDList, List.getElem?_map, List.getElem?_range hk', ← hilbertND_eq]
    rfl
  · simp only
    rw [hI.dict, hbas]
  · intro i hi
    obtain ⟨B, U, V, e1, e2, e3⟩ := h3 i hi
    refine ⟨B, U, V, e1, ?_, e3⟩
    simp only
    rw [if_neg (by have := (levelND_bounds hd hi).2.2; omega), e2]
  · exact ⟨Bt, Ut, Vt, eUt, if_pos rfl, hVt⟩

/-! ### C62 -/

/-- **C62 (round trip).**  The file written by `save` for a non-degenerate object built by the constructor can be read
back, and the object read has the same parameters, Hilbert vectors, tables, bases and solve pairs of both kinds. -/
theorem C62_save_load_ND [NeZero p] (hpN : 1 < p ^ N) {solve : Solver (ZMod (p ^ N))} {f : MonMap (ZMod (p ^ N))}
    {D : ND (ZMod (p ^ N))} (hC : ConstructedND solve p f n d D) (verbose mem : Bool) :
    ∃ s X, saveTextND p solve N verbose mem D = .ok s ∧ loadTextND p (p ^ N) s = .ok X ∧
      SameStateND D p N verbose mem X ∧
      (∀ i : Nat, i < D.n → PairLoaded solve D.toDR X.toLoaded (((i : Int) + 1) * D.d - (D.n + 1))) ∧
      PairLoaded solve D.toDR X.toLoaded (((D.d : Int) - 2) * (D.n + 1) + 1) ∧
      (∀ i : Nat, i < D.n + 1 → PairLoadedND solve D.toDR X ((i : Int) * D.d)) ∧
      PairLoadedND solve D.toDR X (((D.d : Int) - 1) * (D.n + 1) + 1) := by
  haveI : Fact (1 < p ^ N) := ⟨hpN⟩
  obtain ⟨s, X, h1, h2, -, h3, h4, h5, h6, h7, -⟩ := saved_loaded_nd hC verbose mem
  exact ⟨s, X, h1, h2, h3, h4, h5, h6, h7⟩

/-- **C62 (polynomial).**  The loaded `fbar` is the reduction of `f` modulo `p` and the loaded `f` its naive lift. -/
theorem C62_loaded_f_ND [NeZero p] (hpN : 1 < p ^ N) {solve : Solver (ZMod (p ^ N))} {f : MonMap (ZMod (p ^ N))}
    {D : ND (ZMod (p ^ N))} (hC : ConstructedND solve p f n d D) (verbose mem : Bool) :
    ∃ s X, saveTextND p solve N verbose mem D = .ok s ∧ loadTextND p (p ^ N) s = .ok X ∧
      WFPoly (n + 1) X.f ∧ WFPoly (n + 1) X.fbar ∧
      (∀ t, MonMap.get X.fbar t = (((MonMap.get f t).val : Nat) : ZMod p)) ∧
      ∀ t, MonMap.get X.f t = ((MonMap.get X.fbar t).val : ZMod (p ^ N)) := by
  haveI : Fact (1 < p ^ N) := ⟨hpN⟩
  obtain ⟨s, X, h1, h2, -, -, -, -, -, -, L, hL, h3, h4⟩ := saved_loaded_nd hC verbose mem
  exact ⟨s, X, h1, h2, loaded_poly (C45_base_ND hC) hL h3 h4⟩

/-- **C62 (other class).**  The constructor of the base class reads a file written by a non-degenerate object, and
gets the part of the object that it shares; the constructor of the non-degenerate class does not accept a file
written by an object of the base class. -/
theorem C62_other_class [NeZero p] (hpN : 1 < p ^ N) {solve : Solver (ZMod (p ^ N))} {f : MonMap (ZMod (p ^ N))}
    {D : ND (ZMod (p ^ N))} (hC : ConstructedND solve p f n d D) (verbose mem : Bool) :
    ∃ s s' X, saveTextND p solve N verbose mem D = .ok s ∧ saveText p solve N verbose mem D.toDR = .ok s' ∧
      loadTextND p (p ^ N) s = .ok X ∧ loadText p (p ^ N) s = .ok X.toLoaded ∧
      ∃ e, loadTextND p (p ^ N) s' = .error e := by
  haveI : Fact (1 < p ^ N) := ⟨hpN⟩
  obtain ⟨s, X, h1, h2, h3, -⟩ := saved_loaded_nd hC verbose mem
  obtain ⟨s', X', h4, h5, -⟩ := saved_head (C45_base_ND hC) verbose mem []
  rw [List.append_nil] at h5
  refine ⟨s, s', X, h1, h4, h2, h3, .abort, ?_⟩
  rw [loadTextND, h5, Res.bind_ok]
  rfl

/-- The fields of the loaded object that the computations read. -/
def Spec.loadedND {P Q : Nat} (X : LoadedND P Q) : ND (ZMod Q) :=
  { toDR := loadedDR X.toLoaded, ndBasis := X.ndBasis, ndDict := X.ndDict }

/-- **C62 (same object).**  When every coefficient of `f` is nonzero and its representative is below `p`, loading
gives back the saved object itself: every later computation has the same inputs. -/
theorem C62_same_object [NeZero p] (hpN : 1 < p ^ N) {solve : Solver (ZMod (p ^ N))} {f : MonMap (ZMod (p ^ N))}
    {D : ND (ZMod (p ^ N))} (hC : ConstructedND solve p f n d D) (hlow : ∀ e ∈ f, e.2 ≠ 0 ∧ e.2.val < p)
    (verbose mem : Bool) :
    ∃ s X, saveTextND p solve N verbose mem D = .ok s ∧ loadTextND p (p ^ N) s = .ok X ∧ loadedND X = D := by
  haveI : Fact (1 < p ^ N) := ⟨hpN⟩
  obtain ⟨s, X, h1, h2, -, hS, -, -, -, -, L, hL, h3, -⟩ := saved_loaded_nd hC verbose mem
  obtain ⟨en, ed, hI⟩ := hC.init
  have hf : X.f = D.f := by
    rw [hI.base.f_eq]
    exact loaded_f_same hpN (by rw [en]; exact hC.wf) (by rw [ed]; exact hC.hom) hlow hL h3
  refine ⟨s, X, h1, h2, ?_⟩
  obtain ⟨⟨n', d', f', tl, td, bs, bd⟩, nb, nd⟩ := D
  simp only [loadedND, loadedDR]
  rw [hS.hn, hS.hd, hf, hS.lists, hS.dicts, hS.basis, hS.basisDict, hS.ndBasis, hS.ndDict]

/-- The cubic meets the hypotheses of C62, with coefficients below 5. -/
example : (∃ D, ConstructedND (R := ZMod (5 ^ 2)) exSolve 5 exCubic 1 3 D) ∧ 1 < 5 ^ 2 ∧
    (∀ e ∈ exCubic, e.2 ≠ 0 ∧ e.2.val < 5) := by
  obtain ⟨D, hC, -⟩ := exCubic_constructedND
  exact ⟨⟨D, hC⟩, by norm_num, by decide +kernel⟩

end Verif
