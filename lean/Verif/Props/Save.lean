import Verif.Lemmas.Save
import Verif.Props.DeRham

/-!
Property C41: saving an object and loading the file.
-/

namespace Verif

open Spec

variable {p N n d : Nat}

/-- The loaded object has the tables, the basis and the parameters of the saved one. -/
structure Spec.SameState {q : Nat} (D : DR (ZMod q)) (p N : Nat) (verbose mem : Bool) (X : Loaded p q) : Prop where
  hp : X.p = p
  hN : X.precision = N
  hv : X.verbose = verbose
  hm : X.saveMemory = mem
  hn : X.n = D.n
  hd : X.d = D.d
  hilb : X.hilbert.length = (((D.d : Int) - 2) * (D.n + 1) + 1).toNat
  hilbVal : ∀ k, k < X.hilbert.length → X.hilbert[k]? = some (hilbertJ D.d D.n k)
  lists : X.tupleList = D.tupleList
  dicts : X.tupleDict = D.tupleDict
  basis : X.basis = D.basis
  basisDict : X.basisDict = D.basisDict

/-- The loaded dictionary holds the pair `get_solve_J` returned for degree `l` when the object was saved. -/
def Spec.PairLoaded {q : Nat} (solve : Solver (ZMod q)) (D : DR (ZMod q)) (X : Loaded p q) (l : Int) : Prop :=
  ∃ B U V, solveJ solve D l = .ok (B, U) ∧ X.solved l = some (B.map Int.ofNat, V) ∧ SameMat U V

theorem level_bounds {n d i : Nat} (hd : n < d) (hi : i < n) :
    (0 : Int) ≤ ((i : Int) + 1) * d - (n + 1) ∧ ((i : Int) + 1) * d - (n + 1) ≤ (n + 1) * d ∧
    ((i : Int) + 1) * d - (n + 1) < ((d : Int) - 2) * (n + 1) + 1 := by
  refine ⟨by nlinarith, ?_, ?_⟩
  · have : ((i : Int) + 1) * d ≤ (n + 1) * d := by apply mul_le_mul_of_nonneg_right <;> omega
    omega
  · have : ((i : Int) + 1) * d ≤ n * d := by apply mul_le_mul_of_nonneg_right <;> omega
    nlinarith

theorem top_bounds {n d : Nat} (hd : n < d) :
    (0 : Int) ≤ ((d : Int) - 2) * (n + 1) + 1 ∧ ((d : Int) - 2) * (n + 1) + 1 ≤ (n + 1) * d := by
  constructor
  · by_cases h : d = 1
    · subst h; have : n = 0 := by omega
      subst this; norm_num
    · have : (0 : Int) ≤ ((d : Int) - 2) * (n + 1) := mul_nonneg (by omega) (by omega)
      omega
  · nlinarith

/-- The coefficient of the loaded polynomial at the monomial `t`: the representative of the reduction. -/
def Spec.naive (p : Nat) {q : Nat} (c : ZMod q) : Nat := c.val % p

theorem zip_map_self {α β : Type} (g : α → β) : ∀ L : List α, L.zip (L.map g) = L.map (fun t => (t, g t))
  | [] => rfl
  | a :: L => by rw [List.map_cons, List.zip_cons_cons, zip_map_self g L, List.map_cons]

theorem saved_head [NeZero p] [Fact (1 < p ^ N)] {solve : Solver (ZMod (p ^ N))} {f : MonMap (ZMod (p ^ N))}
    {D : DR (ZMod (p ^ N))} (hC : Constructed solve p f n d D) (verbose mem : Bool) (rest : Str) :
    ∃ s X, saveText p solve N verbose mem D = .ok s ∧ loadHead p (p ^ N) (s ++ rest) = .ok (X, '\n' :: rest) ∧
      SameState D p N verbose mem X ∧
      (∀ i : Nat, i < D.n → PairLoaded solve D X (((i : Int) + 1) * D.d - (D.n + 1))) ∧
      PairLoaded solve D X (((D.d : Int) - 2) * (D.n + 1) + 1) ∧
      ∃ L, IsTable D.n D.d L ∧
        X.f = ((L.filter (fun t => decide (((naive p (MonMap.get f t) : Nat) : ZMod p) ≠ 0))).map
          (fun t => (t, ((naive p (MonMap.get f t) : Nat) : ZMod (p ^ N))))) ∧
        X.fbar = ((L.filter (fun t => decide (((naive p (MonMap.get f t) : Nat) : ZMod p) ≠ 0))).map
          (fun t => (t, ((naive p (MonMap.get f t) : Nat) : ZMod p)))) := by
  obtain ⟨en, ed, hI⟩ := hC.init
  obtain ⟨htl, htd, hbd⟩ := init_tables hC.built
  have hok := hI.ok
  have hd := hok.hd
  haveI : NeZero (p ^ N) := ⟨by have := (Fact.out : 1 < p ^ N); omega⟩
  haveI : Nontrivial (ZMod (p ^ N)) := ZMod.nontrivial _
  -- the vector of fbar
  have hdD : (D.d : Int) ≤ (D.n + 1) * D.d := by nlinarith
  obtain ⟨L, hL, eL, eDict⟩ := D.list_ok hok D.d (by omega) hdD
  obtain ⟨g, hg⟩ : ∃ g : IVec → ZMod p, g = fun t => ((naive p (MonMap.get f t) : Nat) : ZMod p) := ⟨_, rfl⟩
  have hfv : (reduceMap p D.f).foldlM (fun (v : List (ZMod p)) e => do
      let i ← look (buildDict L) e.1
      aset v i e.2) (List.replicate L.length 0) = .ok (L.map g) := by
    have e0 : List.replicate L.length (0 : ZMod p) = L.map (fun _ => 0) := by simp
    rw [e0, vector_ok hL]
    · congr 1
      refine List.map_congr_left (fun t _ => ?_)
      rw [reduceMap, find?_mapVal (fun c : ZMod (p ^ N) => ((c.val % p : Nat) : ZMod p)), hg, hI.f_eq]
      simp only [naive, MonMap.get]
      cases MonMap.find? f t with
      | none => simp
      | some c => rfl
    · intro e he
      obtain ⟨e', he', rfl⟩ := List.mem_map.1 he
      have h1 := hok.f_wf.1 e' he'
      exact ⟨h1.1, h1.2, hok.f_hom e' he'⟩
    · have : (reduceMap p D.f).map Prod.fst = D.f.map Prod.fst := by simp [reduceMap]
      rw [this]
      exact LexLt_pairwise_nodup hok.f_wf.2
  -- the pairs
  have hpair : ∀ i, i < D.n → ∃ LL B U, D.list (((i : Int) + 1) * D.d - (D.n + 1)) = .ok LL ∧
      solveJ solve D (((i : Int) + 1) * D.d - (D.n + 1)) = .ok (B, U) ∧ (∀ b ∈ B, b < LL.length) ∧ 1 ≤ U.rows :=
    fun i hi => solveJ_rows hC.solver hok _ (level_bounds hd hi).1 (level_bounds hd hi).2.1
  obtain ⟨Lt, Bt, Ut, -, eUt, -, hUt⟩ := solveJ_rows hC.solver hok _ (top_bounds hd).1 (top_bounds hd).2
  obtain ⟨pt, hpt⟩ : ∃ pt : Nat → Str, pt = fun i : Nat =>
      match solveJ solve D (((i : Int) + 1) * D.d - (D.n + 1)) with
      | .ok BU => pairText BU
      | .error _ => [] := ⟨_, rfl⟩
  have hbody : ∃ body, forRange D.n ([] : Str) (fun i acc => do
      let BU ← solveJ solve D (((i : Int) + 1) * D.d - (D.n + 1))
      .ok (acc ++ pairText BU)) = .ok body ∧ body = (List.range D.n).flatMap pt := by
    refine forRange_inv (fun k acc => acc = (List.range k).flatMap pt) rfl ?_
    rintro i acc hi rfl
    obtain ⟨LL, B, U, -, e, -⟩ := hpair i hi
    refine ⟨_, by rw [e, Res.bind_ok], ?_⟩
    rw [List.range_succ, List.flatMap_append, List.flatMap_singleton, hpt]
    simp only [e]
  obtain ⟨body, hbody, rfl⟩ := hbody
  -- the loop of the reader
  have hloop : ∃ st : LoadSt (p ^ N), forRange D.n
      (('\n' :: ((List.range D.n).flatMap pt ++ (pairText (Bt, Ut) ++ rest)), fun _ => none, []) : LoadSt (p ^ N)) (fun i st => do
        let level : Int := ((i : Int) + 1) * D.d - (D.n + 1)
        let r ← readPair (p ^ N) st.1
        let h ← iget (hilbertList D.d D.n) level
        check (decide (h = r.1.1.length))
        let L ← iget D.tupleList level
        let mons ← r.1.1.mapM (fun b => iget L b)
        .ok ((r.2, fun l => if l = level then some r.1 else st.2.1 l, st.2.2 ++ mons) : LoadSt (p ^ N))) = .ok st ∧
      (st.1 = '\n' :: (((List.range D.n).drop D.n).flatMap pt ++ (pairText (Bt, Ut) ++ rest)) ∧
        st.2.2 = (List.range D.n).flatMap (basisBlock solve D) ∧
        ∀ i : Nat, i < D.n → ∃ B U V, solveJ solve D (((i : Int) + 1) * D.d - (D.n + 1)) = .ok (B, U) ∧
          st.2.1 (((i : Int) + 1) * D.d - (D.n + 1)) = some (B.map Int.ofNat, V) ∧ SameMat U V) := by
    refine forRange_inv (fun k (st : LoadSt (p ^ N)) =>
      st.1 = '\n' :: (((List.range D.n).drop k).flatMap pt ++ (pairText (Bt, Ut) ++ rest)) ∧
        st.2.2 = (List.range k).flatMap (basisBlock solve D) ∧
        ∀ i : Nat, i < k → ∃ B U V, solveJ solve D (((i : Int) + 1) * D.d - (D.n + 1)) = .ok (B, U) ∧
          st.2.1 (((i : Int) + 1) * D.d - (D.n + 1)) = some (B.map Int.ofNat, V) ∧ SameMat U V) ?_ ?_
    · exact ⟨rfl, rfl, fun i hi => by omega⟩
    · rintro i ⟨txt, dict, bas⟩ hi ⟨h1, h2, h3⟩
      obtain ⟨LL, B, U, eLL, e, hlt, hr⟩ := hpair i hi
      simp only at h1 h2 h3
      have hdrop : (List.range D.n).drop i = i :: (List.range D.n).drop (i + 1) := by
        rw [List.drop_eq_getElem_cons (by simpa using hi)]
        simp
      rw [hdrop, List.flatMap_cons, List.append_assoc] at h1
      have hpti : pt i = pairText (B, U) := by rw [hpt]; simp only [e]
      rw [hpti] at h1
      obtain ⟨V, hV, eV⟩ := readPair_ok (q := p ^ N) B U hr
        (((List.range D.n).drop (i + 1)).flatMap pt ++ (pairText (Bt, Ut) ++ rest))
      obtain ⟨b0, -, b2⟩ := level_bounds hd hi
      have hlev : (((i : Int) + 1) * D.d - (D.n + 1)).toNat = (i + 1) * D.d - (D.n + 1) := by
        zify [show D.n + 1 ≤ (i + 1) * D.d by zify; omega]
        rw [Int.toNat_of_nonneg b0]
      have hblk : basisBlock solve D i = B.map (fun b => LL.getD b []) := by
        rw [basisBlock, e, eLL]
      have hcount := (hI.block i hi).count
      rw [hblk, List.length_map] at hcount
      have hh : iget (hilbertList D.d D.n) (((i : Int) + 1) * D.d - (D.n + 1)) = .ok (B.length : Int) := by
        rw [iget, if_neg (by omega), aget_of_lt _ _ (by simp only [hilbertList, List.length_map, List.length_range]; omega)]
        simp only [hilbertList, List.getElem_map, List.getElem_range]
        rw [hlev, hcount]
      have hmons : (B.map Int.ofNat).mapM (fun b => iget LL b) = .ok ((B.map Int.ofNat).map (fun b => LL.getD b.toNat [])) := by
        apply mapM_eq_ok
        intro b hb
        obtain ⟨b', hb', rfl⟩ := List.mem_map.1 hb
        have := hlt b' hb'
        show (if (b' : Int) < 0 then _ else _) = _
        rw [if_neg (by omega)]
        show aget LL b' = .ok (LL.getD b' [])
        rw [aget_of_lt _ _ this, getD_getElem LL _ b' this]
      refine ⟨(_, fun l => if l = ((i : Int) + 1) * D.d - (D.n + 1) then some (B.map Int.ofNat, V) else dict l,
        bas ++ (B.map Int.ofNat).map (fun b => LL.getD b.toNat [])), ?_, rfl, ?_, ?_⟩
      · simp only
        rw [h1, eV, Res.bind_ok]
        simp only
        rw [hh, Res.bind_ok, List.length_map, decide_eq_true rfl, check_true, Res.bind_ok]
        rw [show iget D.tupleList (((i : Int) + 1) * D.d - (D.n + 1)) = .ok LL from eLL, Res.bind_ok, hmons, Res.bind_ok]
      · simp only
        rw [h2, List.range_succ, List.flatMap_append, List.flatMap_singleton, hblk, List.map_map]
        rfl
      · intro j hj
        by_cases hji : j = i
        · subst hji
          exact ⟨B, U, V, e, if_pos rfl, hV⟩
        · obtain ⟨B', U', V', e1, e2, e3⟩ := h3 j (by omega)
          refine ⟨B', U', V', e1, ?_, e3⟩
          simp only
          rw [if_neg, e2]
          intro hc
          have : ((j : Int) + 1) * D.d = ((i : Int) + 1) * D.d := by omega
          have := mul_right_cancel₀ (by omega : (D.d : Int) ≠ 0) this
          omega
  obtain ⟨⟨txt, dict, bas⟩, hloop, h1, h2, h3⟩ := hloop
  simp only at h1 h2 h3
  have hdropn : (List.range D.n).drop D.n = [] := by simp
  rw [hdropn, List.flatMap_nil, List.nil_append] at h1
  obtain ⟨Vt, hVt, eVt⟩ := readPair_ok (q := p ^ N) Bt Ut hUt rest
  -- the terms
  have hterms : ((L.zip (L.map g)).filter (fun e => decide (e.2 ≠ 0))) =
      (L.filter (fun t => decide (g t ≠ 0))).map (fun t => (t, g t)) := by
    have : L.zip (L.map g) = L.map (fun t => (t, g t)) := by
      exact zip_map_self g L
    rw [this, List.filter_map]; rfl
  have hLlen : ∀ t ∈ L, t.length = D.n + 1 := fun t ht => ((hL.2 t).1 ht).1
  have hval : ∀ t, ((g t).val : Nat) = naive p (MonMap.get f t) := by
    intro t
    rw [hg]
    exact ZMod.val_natCast_of_lt (Nat.mod_lt _ (NeZero.pos p))
  have hsort : (L.filter (fun t => decide (g t ≠ 0))).Pairwise LexLt := hL.1.sublist List.filter_sublist
  have hset : ∀ {V : Type} (h : IVec → V), MonMap.setAll [] ((L.filter (fun t => decide (g t ≠ 0))).map (fun t => (t, h t)))
      = (L.filter (fun t => decide (g t ≠ 0))).map (fun t => (t, h t)) := by
    intro V h
    apply setAll_sorted (n := D.n + 1) (by omega)
    · intro e he
      obtain ⟨t, ht, rfl⟩ := List.mem_map.1 he
      exact hLlen t (List.mem_of_mem_filter ht)
    · rw [List.map_map]
      simpa [Function.comp_def] using hsort
  have hgf : (fun t => decide (g t ≠ 0)) = (fun t => decide (((naive p (MonMap.get f t) : Nat) : ZMod p) ≠ 0)) := by rw [hg]
  have hsave : saveText p solve N verbose mem D = .ok ((line (showInt p) ++ (line (showInt N) ++ (line (showBool verbose) ++
      (line (showBool mem) ++ (line (showInt D.n) ++ (line (showInt D.d) ++
      (line (showVec showInt (hilbertList D.d D.n)) ++ line (showVec showMod (L.map g))))))))) ++
      ((List.range D.n).flatMap pt ++ pairText (Bt, Ut))) := by
    rw [saveText, eL, Res.bind_ok, eDict, Res.bind_ok, hfv, Res.bind_ok]
    simp only
    rw [hbody, Res.bind_ok, show solveJ solve D D.topLevel = .ok (Bt, Ut) from eUt, Res.bind_ok]
  refine ⟨_, (⟨p, N, verbose, mem, D.n, D.d, hilbertList D.d D.n,
      (L.filter (fun t => decide (g t ≠ 0))).map (fun t => (t, (((g t).val : Nat) : ZMod (p ^ N)))),
      (L.filter (fun t => decide (g t ≠ 0))).map (fun t => (t, g t)),
      D.tupleList, D.tupleList.map buildDict, bas, buildDict bas,
      fun l => if l = ((D.d : Int) - 2) * (D.n + 1) + 1 then some (Bt.map Int.ofNat, Vt) else dict l⟩ : Loaded p (p ^ N)),
    hsave, ?_, ⟨rfl, rfl, rfl, rfl, rfl, rfl, ?_, ?_, rfl, htd.symm, ?_, ?_⟩, ?_, ?_, L, hL, ?_, ?_⟩
  · rw [loadHead]
    simp only [List.append_assoc]
    rw [readInt_line, Res.bind_ok]
    simp only [decide_true]
    rw [check_true, Res.bind_ok, readInt_nl, Res.bind_ok]
    simp only
    rw [if_neg (by omega), Int.toNat_natCast, decide_eq_true (by push_cast; rfl), check_true, Res.bind_ok, readBool_nl,
      Res.bind_ok]
    simp only
    rw [readBool_nl, Res.bind_ok]
    simp only
    rw [readInt_nl, Res.bind_ok]
    simp only
    rw [readInt_nl, Res.bind_ok]
    simp only
    rw [readIntVec_nl, Res.bind_ok]
    simp only
    rw [readModVec_nl, Res.bind_ok]
    simp only
    rw [if_neg (by omega), Int.toNat_natCast, Int.toNat_natCast, htl, Res.bind_ok,
      show iget D.tupleList (D.d : Int) = .ok L from eL, Res.bind_ok, List.length_map, decide_eq_true rfl, check_true,
      Res.bind_ok, hloop, Res.bind_ok]
    simp only
    rw [h1, eVt, Res.bind_ok, hterms, List.map_map]
    have hcomp : ((fun e : IVec × ZMod p => (e.1, ((e.2.val : Nat) : ZMod (p ^ N)))) ∘ fun t => (t, g t)) =
        fun t => (t, (((g t).val : Nat) : ZMod (p ^ N))) := rfl
    rw [hcomp, hset, hset]
  · simp [hilbertList]
  · intro k hk
    simp only at hk ⊢
    have hk' : k < (((D.d : Int) - 2) * (D.n + 1) + 1).toNat := by simpa [hilbertList] using hk
    rw [hilbertList, List.getElem?_map, List.getElem?_range hk']
    rfl
  · exact h2.trans hI.blocks.symm
  · simp only
    rw [hbd, h2, hI.blocks]
  · intro i hi
    obtain ⟨B, U, V, e1, e2, e3⟩ := h3 i hi
    refine ⟨B, U, V, e1, ?_, e3⟩
    simp only
    rw [if_neg (by have := (level_bounds hd hi).2.2; omega), e2]
  · exact ⟨Bt, Ut, Vt, eUt, if_pos rfl, hVt⟩
  · simp only
    rw [hgf]
    refine List.map_congr_left (fun t _ => ?_)
    rw [hval]
  · simp only
    rw [hgf, hg]

theorem saved_loaded [NeZero p] [Fact (1 < p ^ N)] {solve : Solver (ZMod (p ^ N))} {f : MonMap (ZMod (p ^ N))}
    {D : DR (ZMod (p ^ N))} (hC : Constructed solve p f n d D) (verbose mem : Bool) :
    ∃ s X, saveText p solve N verbose mem D = .ok s ∧ loadText p (p ^ N) s = .ok X ∧
      SameState D p N verbose mem X ∧
      (∀ i : Nat, i < D.n → PairLoaded solve D X (((i : Int) + 1) * D.d - (D.n + 1))) ∧
      PairLoaded solve D X (((D.d : Int) - 2) * (D.n + 1) + 1) ∧
      ∃ L, IsTable D.n D.d L ∧
        X.f = ((L.filter (fun t => decide (((naive p (MonMap.get f t) : Nat) : ZMod p) ≠ 0))).map
          (fun t => (t, ((naive p (MonMap.get f t) : Nat) : ZMod (p ^ N))))) ∧
        X.fbar = ((L.filter (fun t => decide (((naive p (MonMap.get f t) : Nat) : ZMod p) ≠ 0))).map
          (fun t => (t, ((naive p (MonMap.get f t) : Nat) : ZMod p)))) := by
  obtain ⟨s, X, h1, h2, h3⟩ := saved_head hC verbose mem []
  rw [List.append_nil] at h2
  exact ⟨s, X, h1, by rw [loadText, h2, Res.bind_ok], h3⟩

/-! ### C41 -/

/-- C41.  The file written by `save` for an object built by the constructor can be read back, and the object read has
the same parameters, Hilbert vector, tables, basis and solve pairs. -/
theorem C41_save_load [NeZero p] (hpN : 1 < p ^ N) {solve : Solver (ZMod (p ^ N))} {f : MonMap (ZMod (p ^ N))}
    {D : DR (ZMod (p ^ N))} (hC : Constructed solve p f n d D) (verbose mem : Bool) :
    ∃ s X, saveText p solve N verbose mem D = .ok s ∧ loadText p (p ^ N) s = .ok X ∧
      SameState D p N verbose mem X ∧
      (∀ i : Nat, i < D.n → PairLoaded solve D X (((i : Int) + 1) * D.d - (D.n + 1))) ∧
      PairLoaded solve D X (((D.d : Int) - 2) * (D.n + 1) + 1) := by
  haveI : Fact (1 < p ^ N) := ⟨hpN⟩
  obtain ⟨s, X, h1, h2, h3, h4, h5, -⟩ := saved_loaded hC verbose mem
  exact ⟨s, X, h1, h2, h3, h4, h5⟩

theorem find?_of_mem_nodup {V : Type} {m : MonMap V} (h : (m.map Prod.fst).Nodup) {e : IVec × V} (he : e ∈ m) :
    MonMap.find? m e.1 = some e.2 := by
  induction m with
  | nil => cases he
  | cons a m ih =>
    obtain ⟨k, v⟩ := a
    rw [MonMap.find?_cons]
    rcases List.mem_cons.1 he with rfl | he'
    · rw [if_pos rfl]
    · rw [if_neg, ih (List.nodup_cons.1 h).2 he']
      rintro rfl
      exact (List.nodup_cons.1 h).1 (List.mem_map.2 ⟨e, he', rfl⟩)

theorem get_filter {V : Type} [Zero V] {L : List IVec} (P : IVec → Bool) (g : IVec → V) (h : ∀ t, P t = false → g t = 0) (t : IVec) :
    MonMap.get ((L.filter P).map (fun t => (t, g t))) t = if t ∈ L then g t else 0 := by
  rw [MonMap.get, find?_mapKeys]
  by_cases hL : t ∈ L
  · rw [if_pos hL]
    cases hP : P t with
    | false =>
      rw [if_neg (by simp [hP]), h t hP]; rfl
    | true => rw [if_pos (List.mem_filter.2 ⟨hL, hP⟩)]; rfl
  · rw [if_neg hL, if_neg (fun h => hL (List.mem_of_mem_filter h))]; rfl

theorem loaded_poly [NeZero p] {solve : Solver (ZMod (p ^ N))} {f : MonMap (ZMod (p ^ N))}
    {D : DR (ZMod (p ^ N))} (hC : Constructed solve p f n d D) {L : List IVec} (hL : IsTable D.n D.d L) {X : Loaded p (p ^ N)}
    (h3 : X.f = ((L.filter (fun t => decide (((naive p (MonMap.get f t) : Nat) : ZMod p) ≠ 0))).map
          (fun t => (t, ((naive p (MonMap.get f t) : Nat) : ZMod (p ^ N))))))
    (h4 : X.fbar = ((L.filter (fun t => decide (((naive p (MonMap.get f t) : Nat) : ZMod p) ≠ 0))).map
          (fun t => (t, ((naive p (MonMap.get f t) : Nat) : ZMod p))))) :
    WFPoly (n + 1) X.f ∧ WFPoly (n + 1) X.fbar ∧
      (∀ t, MonMap.get X.fbar t = (((MonMap.get f t).val : Nat) : ZMod p)) ∧
      ∀ t, MonMap.get X.f t = ((MonMap.get X.fbar t).val : ZMod (p ^ N)) := by
  obtain ⟨en, ed, hI⟩ := hC.init
  have hout : ∀ t, t ∉ L → MonMap.get f t = 0 := by
    intro t ht
    rw [MonMap.get]
    cases hf : MonMap.find? f t with
    | none => rfl
    | some c =>
      have hm := mem_of_find? hf
      refine absurd ((hL.2 t).2 ?_) ht
      have h1 := hC.wf.1 _ hm
      exact ⟨by rw [en]; exact h1.1, h1.2, by rw [ed]; exact hC.hom _ hm⟩
  have hz : ∀ a : Nat, ((a % p : Nat) : ZMod p) = (a : ZMod p) := fun a => ZMod.natCast_mod a p
  have hmod : ∀ t, decide (((naive p (MonMap.get f t) : Nat) : ZMod p) ≠ 0) = false → naive p (MonMap.get f t) = 0 := by
    intro t ht
    have h0 : ((naive p (MonMap.get f t) : Nat) : ZMod p) = 0 := by
      by_contra hc
      rw [decide_eq_true hc] at ht
      cases ht
    rw [ZMod.natCast_eq_zero_iff] at h0
    exact Nat.eq_zero_of_dvd_of_lt h0 (Nat.mod_lt _ (NeZero.pos p))
  have hwf : ∀ {V : Type} (P : IVec → Bool) (g : IVec → V), WFPoly (n + 1) ((L.filter P).map (fun t => (t, g t))) := by
    intro V P g
    refine ⟨?_, ?_⟩
    · intro e he
      obtain ⟨t, ht, rfl⟩ := List.mem_map.1 he
      have := (hL.2 t).1 (List.mem_of_mem_filter ht)
      exact ⟨by rw [← en]; exact this.1, this.2.1⟩
    · rw [List.map_map]
      have hs : (L.filter P).Pairwise LexLt := hL.1.sublist List.filter_sublist
      simpa [Function.comp_def] using hs
  have hbar : ∀ t, MonMap.get X.fbar t = (((MonMap.get f t).val : Nat) : ZMod p) := by
    intro t
    rw [h4, get_filter _ _ (fun t ht => by rw [hmod t ht, Nat.cast_zero])]
    by_cases ht : t ∈ L
    · rw [if_pos ht]; exact hz _
    · rw [if_neg ht, hout t ht]; simp
  refine ⟨by rw [h3]; exact hwf _ _, by rw [h4]; exact hwf _ _, hbar, ?_⟩
  intro t
  rw [hbar, h3, get_filter _ _ (fun t ht => by rw [hmod t ht, Nat.cast_zero]), ZMod.val_natCast]
  by_cases ht : t ∈ L
  · rw [if_pos ht]; rfl
  · rw [if_neg ht, hout t ht]; simp

/-- C41.  The loaded `fbar` is the reduction of `f` modulo `p`, coefficient by coefficient, and the loaded `f` is its
naive lift. -/
theorem C41_loaded_f [NeZero p] (hpN : 1 < p ^ N) {solve : Solver (ZMod (p ^ N))} {f : MonMap (ZMod (p ^ N))}
    {D : DR (ZMod (p ^ N))} (hC : Constructed solve p f n d D) (verbose mem : Bool) :
    ∃ s X, saveText p solve N verbose mem D = .ok s ∧ loadText p (p ^ N) s = .ok X ∧
      WFPoly (n + 1) X.f ∧ WFPoly (n + 1) X.fbar ∧
      (∀ t, MonMap.get X.fbar t = (((MonMap.get f t).val : Nat) : ZMod p)) ∧
      ∀ t, MonMap.get X.f t = ((MonMap.get X.fbar t).val : ZMod (p ^ N)) := by
  haveI : Fact (1 < p ^ N) := ⟨hpN⟩
  obtain ⟨s, X, h1, h2, -, -, -, L, hL, h3, h4⟩ := saved_loaded hC verbose mem
  exact ⟨s, X, h1, h2, loaded_poly hC hL h3 h4⟩

/-- C41.  The loaded polynomial is the saved one exactly when every coefficient of the saved one is the representative
of its reduction, that is, below `p`. -/
theorem C41_same_f_iff [NeZero p] (hpN : 1 < p ^ N) {solve : Solver (ZMod (p ^ N))} {f : MonMap (ZMod (p ^ N))}
    {D : DR (ZMod (p ^ N))} (hC : Constructed solve p f n d D) (verbose mem : Bool) :
    ∃ s X, saveText p solve N verbose mem D = .ok s ∧ loadText p (p ^ N) s = .ok X ∧
      (toPoly (n + 1) X.f = toPoly (n + 1) f ↔ ∀ e ∈ f, e.2.val < p) := by
  obtain ⟨s, X, h1, h2, hw1, -, h3, h4⟩ := C41_loaded_f hpN hC verbose mem
  haveI : NeZero (p ^ N) := ⟨by omega⟩
  have hN : N ≠ 0 := by rintro rfl; simp at hpN
  have hlt : ∀ a : Nat, a % p < p ^ N := fun a =>
    lt_of_lt_of_le (Nat.mod_lt _ (NeZero.pos p)) (Nat.le_self_pow hN p)
  have hget : ∀ t, MonMap.get X.f t = (((MonMap.get f t).val % p : Nat) : ZMod (p ^ N)) := by
    intro t
    rw [h4, h3, ZMod.val_natCast]
  refine ⟨s, X, h1, h2, ?_, ?_⟩
  · intro h e he
    have hk := hC.wf.1 e he
    have hc := congrArg (MvPolynomial.coeff (expo (n + 1) e.1)) h
    rw [coeff_toPoly hw1 hk.1 hk.2, coeff_toPoly hC.wf hk.1 hk.2, hget] at hc
    have hge : MonMap.get f e.1 = e.2 := by
      rw [MonMap.get, find?_of_mem_nodup (LexLt_pairwise_nodup hC.wf.2) he]; rfl
    rw [hge] at hc
    have := congrArg ZMod.val hc
    rw [ZMod.val_natCast_of_lt (hlt _)] at this
    rw [← this]
    exact Nat.mod_lt _ (NeZero.pos p)
  · intro h
    ext m
    obtain ⟨k, hk1, hk2, hk3⟩ : ∃ k : IVec, k.length = n + 1 ∧ NonNeg k ∧ expo (n + 1) k = m := by
      refine ⟨List.ofFn (fun i => (m i : Int)), by simp, ?_, ?_⟩
      · intro x hx
        obtain ⟨i, rfl⟩ := (List.mem_ofFn' _ _).1 hx
        simp
      · ext i
        rw [expo_apply, List.getD_eq_getElem?_getD, List.getElem?_ofFn, dif_pos i.2]
        simp
    rw [← hk3, coeff_toPoly hw1 hk1 hk2, coeff_toPoly hC.wf hk1 hk2, hget]
    have hsm : (MonMap.get f k).val < p := by
      rw [MonMap.get]
      cases hf : MonMap.find? f k with
      | none => simp; exact NeZero.pos p
      | some c => exact h _ (mem_of_find? hf)
    rw [Nat.mod_eq_of_lt hsm, ZMod.natCast_zmod_val]

/-- The fields of the loaded object that the computations read. -/
def Spec.loadedDR {P Q : Nat} (X : Loaded P Q) : DR (ZMod Q) :=
  { n := X.n, d := X.d, f := X.f, tupleList := X.tupleList, tupleDict := X.tupleDict, basis := X.basis,
    basisDict := X.basisDict }

theorem loaded_f_same [NeZero p] (hpN : 1 < p ^ N) {f g : MonMap (ZMod (p ^ N))} {n d : Nat}
    (hf : WFPoly (n + 1) f) (hhom : ∀ e ∈ f, deg e.1 = d) (hlow : ∀ e ∈ f, e.2 ≠ 0 ∧ e.2.val < p)
    {L : List IVec} (hL : IsTable n d L)
    (h3 : g = ((L.filter (fun t => decide (((naive p (MonMap.get f t) : Nat) : ZMod p) ≠ 0))).map
          (fun t => (t, ((naive p (MonMap.get f t) : Nat) : ZMod (p ^ N)))))) : g = f := by
  haveI : NeZero (p ^ N) := ⟨by omega⟩
  subst h3
  apply MonMap.ext_of_sorted
  · have hs : (L.filter (fun t => decide (((naive p (MonMap.get f t) : Nat) : ZMod p) ≠ 0))).Pairwise LexLt :=
      hL.1.sublist List.filter_sublist
    show (List.map Prod.fst _).Pairwise LexLt
    rw [List.map_map]
    simpa [Function.comp_def] using hs
  · exact hf.2
  · intro t
    rw [find?_mapKeys]
    cases hft : MonMap.find? f t with
    | none =>
      rw [if_neg]
      intro h
      have := (List.mem_filter.1 h).2
      rw [MonMap.get, hft] at this
      simp [naive] at this
    | some c =>
      have hm := mem_of_find? hft
      obtain ⟨hc0, hcp⟩ := hlow _ hm
      simp only at hc0 hcp
      have hk := hf.1 _ hm
      have hget : MonMap.get f t = c := by rw [MonMap.get, hft]; rfl
      have hnv : naive p c = c.val := Nat.mod_eq_of_lt hcp
      rw [if_pos, hget, hnv, ZMod.natCast_zmod_val]
      refine List.mem_filter.2 ⟨(hL.2 t).2 ⟨hk.1, hk.2, hhom _ hm⟩, ?_⟩
      rw [hget, hnv]
      refine decide_eq_true ?_
      rw [Ne, ZMod.natCast_eq_zero_iff]
      intro hdv
      have := Nat.eq_zero_of_dvd_of_lt hdv hcp
      exact hc0 ((ZMod.val_eq_zero c).1 this)

/-- C41.  When every coefficient of `f` is nonzero and its representative is below `p`, loading gives back the saved
object itself. -/
theorem C41_same_object [NeZero p] (hpN : 1 < p ^ N) {solve : Solver (ZMod (p ^ N))} {f : MonMap (ZMod (p ^ N))}
    {D : DR (ZMod (p ^ N))} (hC : Constructed solve p f n d D) (hlow : ∀ e ∈ f, e.2 ≠ 0 ∧ e.2.val < p)
    (verbose mem : Bool) :
    ∃ s X, saveText p solve N verbose mem D = .ok s ∧ loadText p (p ^ N) s = .ok X ∧ loadedDR X = D := by
  haveI : Fact (1 < p ^ N) := ⟨hpN⟩
  obtain ⟨s, X, h1, h2, hS, -, -, L, hL, h3, -⟩ := saved_loaded hC verbose mem
  obtain ⟨en, ed, hI⟩ := hC.init
  have hf : X.f = D.f := by
    rw [hI.f_eq]
    exact loaded_f_same hpN (by rw [en]; exact hC.wf) (by rw [ed]; exact hC.hom) hlow hL h3
  refine ⟨s, X, h1, h2, ?_⟩
  obtain ⟨n', d', f', tl, td, bs, bd⟩ := D
  simp only [loadedDR]
  rw [hS.hn, hS.hd, hf, hS.lists, hS.dicts, hS.basis, hS.basisDict]

/-- The cubic with one coefficient changed by a multiple of 5. -/
def exLift : MonMap (ZMod 25) := [([0, 3], 6), ([3, 0], 2)]

set_option maxRecDepth 100000 in
theorem exLift_constructed : ∃ D, Constructed exSolve 5 exLift 1 3 D := by
  obtain ⟨D, hD, hb⟩ := isOk_of_bind (g := DR.basis) (x := DR.init exSolve 5 exLift)
    (b := [[0, 1], [1, 0]]) (by decide +kernel)
  refine ⟨D, ⟨exSolve_ok, ?_, ?_, choose_small (by decide), hD⟩⟩
  · unfold exLift WFPoly NonNeg LexLt; decide
  · unfold exLift; decide

theorem solves_diag {R : Type} [CommRing R] {T : CMat R} {B : List Nat} {U : CMat R} (hB : B = []) (h : Solves T B U)
    (i : Nat) (hi : i < T.rows) : sumLoop T.cols (fun j => T.e i j * U.e j i) = 1 := by
  subst hB
  have := congrFun (congrFun h.eq ⟨i, hi⟩) ⟨i, hi⟩
  rw [Matrix.one_apply_eq, Matrix.mul_apply] at this
  rw [sumLoop_eq_sum_fin, ← this]
  refine Finset.sum_congr rfl (fun j _ => ?_)
  rw [augment, dif_pos j.2]
  rfl

/-- C41: the loaded object need not be consistent.  For `6 y^3 + 2 x^3` modulo 25 the loaded polynomial is
`y^3 + 2 x^3`, but the pair loaded for the top degree is not a solution of the relation matrix of the
loaded polynomial. -/
theorem C41_loaded_inconsistent_wrong : ∃ (D : DR (ZMod (5 ^ 2))) (s : Str) (X : Loaded 5 (5 ^ 2)),
    Constructed (R := ZMod (5 ^ 2)) exSolve 5 exLift 1 3 D ∧ saveText 5 exSolve 2 false false D = .ok s ∧
    loadText 5 (5 ^ 2) s = .ok X ∧
    ∃ (D' : DR (ZMod (5 ^ 2))) (T B : _) (V : CMat (ZMod (5 ^ 2))), Constructed (R := ZMod (5 ^ 2)) exSolve 5 X.f 1 3 D' ∧
      matrixJ D' 3 = .ok T ∧ X.solved 3 = some (List.map Int.ofNat B, V) ∧ ¬ Solves T B V := by
  obtain ⟨D, hC⟩ := exLift_constructed
  obtain ⟨D', hC', -⟩ := exCubic_constructed
  haveI : Fact (1 < 5 ^ 2) := ⟨by norm_num⟩
  obtain ⟨s, X, h1, h2, -, -, ⟨B, U, V, e1, e2, e3⟩, L, hL, hf, -⟩ := saved_loaded (p := 5) (N := 2) hC false false
  obtain ⟨en, ed, -⟩ := hC.init
  rw [en, ed] at e1 e2
  have hXf : X.f = exCubic := by
    rw [en, ed] at hL
    have hc : comps 1 3 = [[0, 3], [1, 2], [2, 1], [3, 0]] := by
      have h := tupleListGenerator_eq 3 1 (by decide)
      exact (Except.ok.inj ((show tupleListGenerator ((3 : Nat) : Int) (1 + 1) = .ok [[0, 3], [1, 2], [2, 1], [3, 0]] by
        decide +kernel).symm.trans h)).symm
    rw [hf, hL.eq (comps_isTable 1 3), hc]
    decide +kernel
  have hval : (do
      let D ← DR.init exSolve 5 exLift
      let D' ← DR.init exSolve 5 exCubic
      let BU ← solveJ exSolve D 3
      let T ← matrixJ D' 3
      (.ok (BU.1, T.rows, sumLoop T.cols (fun j => T.e 0 j * BU.2.e j 0)) : Res _)) = .ok ([], 4, (21 : ZMod 25)) := by
    decide +kernel
  rw [hC.built, Res.bind_ok, hC'.built, Res.bind_ok, show solveJ exSolve D 3 = .ok (B, U) from e1, Res.bind_ok,
    Res.bind_eq_ok] at hval
  obtain ⟨T, hT, hval⟩ := hval
  have hval := Except.ok.inj hval
  have hB : B = [] := congrArg (fun x => x.1) hval
  have hr : T.rows = 4 := congrArg (fun x => x.2.1) hval
  have hsum : sumLoop T.cols (fun j => T.e 0 j * U.e j 0) = (21 : ZMod 25) := congrArg (fun x => x.2.2) hval
  refine ⟨D, s, X, hC, h1, h2, D', T, B, V, by rw [hXf]; exact hC', hT, e2, ?_⟩
  intro hS
  have h := solves_diag hB hS 0 (by omega)
  have hrows := hS.rows
  have hcols := hS.cols
  rw [hB] at hrows
  have : sumLoop T.cols (fun j => T.e 0 j * V.e j 0) = sumLoop T.cols (fun j => T.e 0 j * U.e j 0) := by
    rw [sumLoop_eq_sum, sumLoop_eq_sum]
    refine Finset.sum_congr rfl (fun j hj => ?_)
    have hj := Finset.mem_range.1 hj
    have h1 : j < U.rows := by rw [← e3.1, hrows]; exact hj
    have h2 : 0 < U.cols := by rw [← e3.2.1, hcols, hr]; norm_num
    rw [e3.2.2 j 0 h1 h2]
  rw [this] at h
  have h' := hsum.symm.trans h
  revert h'
  decide +kernel

/-- The cubic meets the hypotheses of C41 and is a naive lift; `exLift` meets them too and is not. -/
example : (∃ D, Constructed (R := ZMod (5 ^ 2)) exSolve 5 exCubic 1 3 D) ∧ 1 < 5 ^ 2 ∧ (∀ e ∈ exCubic, e.2.val < 5) ∧
    (∀ e ∈ exCubic, e.2 ≠ 0 ∧ e.2.val < 5) ∧
    (∃ D, Constructed (R := ZMod (5 ^ 2)) exSolve 5 exLift 1 3 D) ∧ (¬ ∀ e ∈ exLift, e.2.val < 5) := by
  obtain ⟨D, hC, -⟩ := exCubic_constructed
  exact ⟨⟨D, hC⟩, by norm_num, by decide +kernel, by decide +kernel, exLift_constructed, by decide +kernel⟩

end Verif
