import Verif.Model.Save
import Verif.Lemmas.Text
import Verif.Lemmas.DeRhamInit
import Verif.Lemmas.FrobSum
import Verif.Props.Text
import Mathlib.Data.ZMod.Basic

/-! Lemmas for C41: reading back the lines of a saved object. -/

namespace Verif

open Spec

/-! ### Lines -/

theorem line_append (s rest : Str) : line s ++ rest = s ++ '\n' :: rest := by
  rw [line, List.append_assoc]; rfl

theorem nl_ws : isWs '\n' = true := by decide

theorem readInt_line (x : Int) (rest : Str) : readInt (line (showInt x) ++ rest) = .ok (x, '\n' :: rest) := by
  rw [line_append]
  exact (rt_int x).read _ (noDigit_sep _ _ (Or.inl nl_ws))

theorem readInt_nl (x : Int) (rest : Str) : readInt ('\n' :: (line (showInt x) ++ rest)) = .ok (x, '\n' :: rest) := by
  rw [readInt_ws _ _ nl_ws, readInt_line]

theorem readBool_nl (b : Bool) (rest : Str) :
    readBool ('\n' :: (line (showBool b) ++ rest)) = .ok (b, '\n' :: rest) := by
  have h1 : showBool true = showInt 1 := by decide +kernel
  have h0 : showBool false = showInt 0 := by decide +kernel
  cases b
  · rw [h0, readBool, readInt_nl, Res.bind_ok]; rfl
  · rw [h1, readBool, readInt_nl, Res.bind_ok]; rfl

theorem readIntVec_nl (l : List Int) (rest : Str) :
    readVec readInt ('\n' :: (line (showVec showInt l) ++ rest)) = .ok (l, '\n' :: rest) := by
  rw [readVec_ws _ _ nl_ws, line_append]
  exact (rt_intVec l).read _ trivial

theorem readModVec_nl {q : Nat} [NeZero q] (l : List (ZMod q)) (rest : Str) :
    readVec (readMod q) ('\n' :: (line (showVec showMod l) ++ rest)) = .ok (l, '\n' :: rest) := by
  rw [readVec_ws _ _ nl_ws, line_append]
  exact (rt_modVec l).read _ trivial

theorem readMat_nl {q : Nat} [NeZero q] (rows : List (List (ZMod q))) (rest : Str) :
    readVec (readVec (readMod q)) ('\n' :: (line (showMat showMod rows) ++ rest)) = .ok (rows, '\n' :: rest) := by
  rw [readVec_ws _ _ nl_ws, line_append]
  exact rt_modMat rows _

/-! ### Matrices -/

/-- Two matrices have the same size and entries. -/
def Spec.SameMat {R : Type} (U V : CMat R) : Prop :=
  V.rows = U.rows ∧ V.cols = U.cols ∧ ∀ i j, i < U.rows → j < U.cols → V.e i j = U.e i j

theorem makeMatrix_rows {R : Type} [Zero R] (U : CMat R) (h : 1 ≤ U.rows) :
    ∃ V, makeMatrix (matRows U) = .ok V ∧ SameMat U V := by
  obtain ⟨r, hr⟩ : ∃ r, U.rows = r + 1 := ⟨U.rows - 1, by omega⟩
  have hlen : (matRows U).length = U.rows := by simp [matRows]
  have hall : ∀ s ∈ matRows U, s.length = U.cols := by
    intro s hs
    simp only [matRows, List.mem_map] at hs
    obtain ⟨i, -, rfl⟩ := hs
    simp
  cases hm : matRows U with
  | nil => rw [hm] at hlen; simp at hlen; omega
  | cons s l =>
    have hs : s.length = U.cols := hall s (by rw [hm]; simp)
    refine ⟨CMat.mk' (s :: l).length s.length (fun i j => ((s :: l).getD i []).getD j 0), ?_, ?_, ?_, ?_⟩
    · rw [makeMatrix, if_pos]
      rw [List.all_eq_true]
      intro t ht
      have := hall t (by rw [hm]; exact ht)
      simp [this, hs]
    · rw [← hm]; exact hlen
    · exact hs
    · intro i j hi hj
      rw [← hm]
      have hi' : i < (matRows U).length := by omega
      show (if i < (matRows U).length ∧ j < s.length then ((matRows U).getD i []).getD j 0 else 0) = _
      rw [if_pos ⟨hi', by omega⟩]
      simp [matRows, hi, hj]

theorem readPair_ok {q : Nat} [NeZero q] (B : List Nat) (U : CMat (ZMod q)) (h : 1 ≤ U.rows) (rest : Str) :
    ∃ V, SameMat U V ∧ readPair q ('\n' :: (pairText (B, U) ++ rest)) = .ok ((B.map Int.ofNat, V), '\n' :: rest) := by
  obtain ⟨V, eV, hV⟩ := makeMatrix_rows U h
  refine ⟨V, hV, ?_⟩
  rw [pairText, List.append_assoc, readPair, readIntVec_nl, Res.bind_ok]
  simp only
  rw [readMat_nl, Res.bind_ok]
  simp only
  rw [eV, Res.bind_ok]

/-! ### The vector of `fbar` -/

theorem find?_mapVal {V W : Type} (φ : V → W) (m : MonMap V) (k : IVec) :
    MonMap.find? (m.map (fun e => (e.1, φ e.2)) : MonMap W) k = (MonMap.find? m k).map φ := by
  induction m with
  | nil => rfl
  | cons e m ih =>
    obtain ⟨k', v⟩ := e
    rw [List.map_cons, MonMap.find?_cons, MonMap.find?_cons, ih]
    split <;> rfl

theorem find?_mapKeys {V : Type} (g : IVec → V) (L : List IVec) (k : IVec) :
    MonMap.find? (L.map (fun t => (t, g t)) : MonMap V) k = if k ∈ L then some (g k) else none := by
  induction L with
  | nil => rfl
  | cons t L ih =>
    rw [List.map_cons, MonMap.find?_cons, ih]
    by_cases h : t = k
    · subst h; simp
    · have h' : ¬ k = t := fun e => h e.symm
      simp [h, h']

theorem map_set_update {V : Type} (g : IVec → V) (c : V) : ∀ (L : List IVec) (i : Nat), L.Nodup → ∀ h : i < L.length,
    (L.map g).set i c = L.map (Function.update g L[i] c)
  | t :: L, 0, hn, _ => by
    rw [List.map_cons, List.set_cons_zero, List.map_cons]
    simp only [List.getElem_cons_zero, Function.update_self]
    congr 1
    refine List.map_congr_left (fun s hs => ?_)
    rw [Function.update_of_ne]
    rintro rfl
    exact (List.nodup_cons.1 hn).1 hs
  | t :: L, i + 1, hn, h => by
    rw [List.map_cons, List.set_cons_succ, List.map_cons, map_set_update g c L i (List.nodup_cons.1 hn).2 (by simpa using h)]
    simp only [List.getElem_cons_succ]
    congr 1
    rw [Function.update_of_ne]
    intro e
    exact (List.nodup_cons.1 hn).1 (e ▸ List.getElem_mem _)

theorem vector_ok {V : Type} [Zero V] {n : Nat} {l : Int} {L : List IVec} (hL : IsTable n l L) :
    ∀ (m : MonMap V), (∀ e ∈ m, IsTuple (n + 1) l e.1) → (m.map Prod.fst).Nodup → ∀ g : IVec → V,
    m.foldlM (fun (v : List V) e => do
      let i ← look (buildDict L) e.1
      aset v i e.2) (L.map g) = .ok (L.map (fun t => (MonMap.find? m t).getD (g t)))
  | [], _, _, g => rfl
  | (k, c) :: m, hm, hn, g => by
    obtain ⟨i, hi, ei, hlook⟩ := hL.exists_index (hm (k, c) (by simp))
    rw [List.foldlM_cons]
    simp only
    rw [hlook, Res.bind_ok, aset_of_lt _ _ _ (by simpa using hi), Res.bind_ok, map_set_update g c L i hL.nodup hi,
      vector_ok hL m (fun e he => hm e (by simp [he])) (List.nodup_cons.1 hn).2]
    congr 1
    refine List.map_congr_left (fun t _ => ?_)
    rw [getD_getElem L _ i hi] at ei
    rw [ei, MonMap.find?_cons]
    by_cases h : k = t
    · subst h
      rw [if_pos rfl]
      have : MonMap.find? m k = none := by
        cases hf : MonMap.find? m k with
        | none => rfl
        | some v =>
          exact absurd (List.mem_map.2 ⟨(k, v), mem_of_find? hf, rfl⟩) (List.nodup_cons.1 hn).1
      rw [this]
      simp
    · have h' : ¬ t = k := fun e => h e.symm
      rw [if_neg h', Function.update_of_ne h']

/-! ### What `init` stores -/

variable {R : Type} [CommRing R]

theorem init_tables {solve : Solver R} {p : Nat} {f : MonMap R} {D : DR R} (h : DR.init solve p f = .ok D) :
    tupleTables D.n D.d = .ok D.tupleList ∧ D.tupleDict = D.tupleList.map buildDict ∧ D.basisDict = buildDict D.basis := by
  cases f with
  | nil => cases h
  | cons e f =>
    obtain ⟨k, c⟩ := e
    simp only [DR.init] at h
    split at h
    · cases h
    · rw [Res.bind_eq_ok] at h
      obtain ⟨_, -, h⟩ := h
      rw [Res.bind_eq_ok] at h
      obtain ⟨_, -, h⟩ := h
      rw [Res.bind_eq_ok] at h
      obtain ⟨tl, htl, h⟩ := h
      rw [Res.bind_eq_ok] at h
      obtain ⟨_, -, h⟩ := h
      rw [Res.bind_eq_ok] at h
      obtain ⟨_, -, h⟩ := h
      rw [Res.bind_eq_ok] at h
      obtain ⟨basis, -, h⟩ := h
      have := Except.ok.inj h
      subst this
      exact ⟨htl, rfl, rfl⟩

theorem rows_pos [Nontrivial R] {T : CMat R} {B : List Nat} {U : CMat R} (h : Solves T B U) (ht : 1 ≤ T.rows) : 1 ≤ U.rows := by
  by_contra hc
  have h0 : T.cols + B.length = 0 := by rw [← h.rows]; omega
  have := congrFun (congrFun h.eq ⟨0, ht⟩) ⟨0, ht⟩
  rw [Matrix.one_apply_eq, Matrix.mul_apply] at this
  haveI hE : IsEmpty (Fin (T.cols + B.length)) := by rw [h0]; exact Fin.isEmpty
  rw [Finset.univ_eq_empty, Finset.sum_empty] at this
  exact zero_ne_one this

theorem isTuple_first (n : Nat) (l : Int) (h : 0 ≤ l) : IsTuple (n + 1) l (l :: List.replicate n 0) := by
  refine ⟨by simp, ?_, by simp [deg]⟩
  intro x hx
  rcases List.mem_cons.1 hx with rfl | hx
  · exact h
  · rw [List.eq_of_mem_replicate hx]

theorem solveJ_rows [Nontrivial R] {solve : Solver R} (hsolve : SolverOK solve) {D : DR R} (hD : DROk D) (l : Int)
    (h0 : 0 ≤ l) (h1 : l ≤ (D.n + 1) * D.d) :
    ∃ L B U, D.list l = .ok L ∧ solveJ solve D l = .ok (B, U) ∧ (∀ b ∈ B, b < L.length) ∧ 1 ≤ U.rows := by
  by_cases hl : l < (D.d : Int) - 1
  · obtain ⟨L, hL, eL, eM⟩ := matrixJ_small hD l h0 hl
    obtain ⟨B, U, eU, hU⟩ := hsolve (CMat.mk' L.length 0 (fun _ _ => 0))
    refine ⟨L, B, U, eL, by rw [solveJ, eM]; exact eU, hU.lt, rows_pos hU ?_⟩
    exact List.length_pos_of_mem ((hL.2 (l :: List.replicate D.n 0)).2 (isTuple_first D.n l h0))
  · obtain ⟨L, S, T, hL, -, eL, -, eT, hr, -⟩ := matrixJ_ok hD l (by omega) h1
    obtain ⟨B, U, eU, hU⟩ := hsolve T
    refine ⟨L, B, U, eL, by rw [solveJ, eT]; exact eU, fun b hb => by rw [← hr]; exact hU.lt b hb, rows_pos hU ?_⟩
    rw [hr]
    exact List.length_pos_of_mem ((hL.2 (l :: List.replicate D.n 0)).2 (isTuple_first D.n l h0))

end Verif
