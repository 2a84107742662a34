import Verif.Lemmas.Zeta
import Verif.Lemmas.Rank
import Verif.Props.Text
import Verif.Props.Smooth
import Verif.Props.ND

/-!
`zeta_function`: property C40 (and the rank in C45).
-/

namespace Verif

open Spec MvPolynomial

universe u

/-! ### The length of the basis -/

/-- **C45 (rank).**  For every object built by the constructor the length `b` of the basis satisfies
`d b = (d-1)^(n+1) + (-1)^(n+1) (d-1)`, the formula for the primitive middle cohomology of a smooth hypersurface. -/
theorem C45_rank {R : Type} [CommRing R] {solve : Solver R} {p n d : Nat} {f : MonMap R} {D : DR R}
    (hC : Constructed solve p f n d D) :
    (d : ℤ) * D.basis.length = ((d : ℤ) - 1) ^ (n + 1) + (-1) ^ (n + 1) * (d - 1) := by
  obtain ⟨-, -, -, -, -, -, -, hlen⟩ := C45_basis hC
  have hd : n < d := by
    obtain ⟨rfl, rfl, hI⟩ := hC.init
    exact hI.ok.hd
  rw [hlen, rank_formula n d hd]

/-- `3 * 2 = 2^3 - 2`. -/
example : ∃ D, Constructed exSolve 5 exCurve 2 3 D ∧ (3 : ℤ) * D.basis.length = 2 ^ 3 + (-1) ^ 3 * 2 := by
  obtain ⟨D, hD, hb⟩ := exCurve_constructed
  refine ⟨D, hD, ?_⟩
  rw [hb]; rfl

/-! ### The precision -/

/-- **C40 (precision).**  For every prime `p`, every `(n, d)` in the table and every requested precision `abs > 0`, with
either option: `zeta_function` chooses a precision, numbers of terms and a flag that satisfy `PrecSpec`, or it stops
with the message that `p` is too small, and then `p < 2 n + r_i` for one of the columns.  No assertion fails and
nothing undefined is computed. -/
theorem C40_precision (p : Nat) (hp : p.Prime) (n d abs : Int) (increase : Bool) (a : DefaultArgs)
    (ha : defaultArgs p n d = .ok a) (habs : 0 < abs) :
    (∃ z, choosePrec p n d abs increase = .ok z ∧ PrecSpec p n abs increase a z) ∨
    (choosePrec p n d abs increase = .error .abort ∧ ∃ i : Nat, (i : Int) < n ∧
      (p : Int) < 2 * n + ((if increase then max (a.N.getD i 0) abs else abs) + (i + 1) - n)) :=
  choosePrec_spec hp ha habs

/-- **C40 (precision, default).**  Without a requested precision the defaults are used. -/
theorem C40_precision_default (p : Nat) (n d abs : Int) (increase : Bool) (habs : abs ≤ 0) :
    choosePrec p n d abs increase =
      (defaultArgs p n d).map (fun a => ⟨a.precision, a.N, a.charpolyPrec, true⟩) := by
  rw [choosePrec]
  cases defaultArgs p n d with
  | error e => rfl
  | ok a => rw [Res.bind_ok, if_neg (by omega)]; rfl

/-- **C40 (failures).**  Whatever the arguments, the choice of the precision fails only by stopping with a message. -/
theorem C40_precision_fails (p : Nat) (hp : p.Prime) (n d abs : Int) (increase : Bool) (e : Fail)
    (h : choosePrec p n d abs increase = .error e) : e = .abort := by
  cases ha : defaultArgs p n d with
  | error e' =>
    rw [choosePrec, ha] at h
    have hmem : (n, d) ∉ defaultPairs := by
      intro hm
      obtain ⟨a, ha'⟩ := (C12_domain p n d).1 hm
      rw [ha] at ha'; cases ha'
    rw [(C12_domain p n d).2 hmem] at ha
    cases ha; cases h; rfl
  | ok a =>
    by_cases habs : 0 < abs
    · rcases C40_precision p hp n d abs increase a ha habs with ⟨z, hz, -⟩ | ⟨hz, -⟩
      · rw [hz] at h; cases h
      · rw [hz] at h; cases h; rfl
    · rw [C40_precision_default p n d abs increase (by omega), ha] at h
      cases h

/-- **C40 (the default precision suffices).**  For a prime `p >= 2 n + r_i` the default precision is at least the one the
formula used for requested precisions asks for. -/
theorem C40_default_needed (p : Nat) (hp : p.Prime) (n d : Int) (a : DefaultArgs) (ha : defaultArgs p n d = .ok a)
    (hsmall : ∀ i : Nat, (i : Int) < n → 2 * n + (a.N.getD i 0 + (i + 1) - n) ≤ p) :
    ∀ i : Nat, (i : Int) < n → 0 < a.N.getD i 0 → precNeeded p n i (a.N.getD i 0) ≤ a.precision :=
  default_needed hp ha hsmall

/-- Plane quartics modulo 31 in both modes; quartic surfaces modulo 13 with 9 digits. -/
example : (∃ z, choosePrec 31 2 4 3 true = .ok z ∧ PrecSpec 31 2 3 true ⟨3, [2, 2], [4, 3, 2, 2, 2, 2, 2]⟩ z) ∧
    (∃ z, choosePrec 31 2 4 1 false = .ok z ∧ PrecSpec 31 2 1 false ⟨3, [2, 2], [4, 3, 2, 2, 2, 2, 2]⟩ z) ∧
    ∀ z, choosePrec 13 3 4 9 false ≠ .ok z := by
  refine ⟨?_, ?_, ?_⟩
  · rcases C40_precision 31 (by norm_num) 2 4 3 true _ rfl (by norm_num) with h | ⟨-, i, hi, h⟩
    · exact h
    · exfalso
      obtain rfl | rfl : i = 0 ∨ i = 1 := by omega
      all_goals simp at h
  · rcases C40_precision 31 (by norm_num) 2 4 1 false _ rfl (by norm_num) with h | ⟨-, i, hi, h⟩
    · exact h
    · exfalso
      obtain rfl | rfl : i = 0 ∨ i = 1 := by omega
      all_goals simp at h
  · intro z hz
    rcases C40_precision 13 (by norm_num) 3 4 9 false _ rfl (by norm_num) with ⟨z', h, hs⟩ | ⟨h, -⟩
    · have h1 := hs.small 2 (by norm_num)
      rw [hs.terms 2 (by norm_num)] at h1
      norm_num at h1
    · rw [h] at hz; cases hz

/-! ### The overloads -/

/-- The polynomial a list of monomials and a list of coefficients stand for: the last value counts. -/
def Spec.LastWins (ms : List IVec) (cs : List Int) (m : MonMap Int) : Prop :=
  (∀ i (h : i < ms.length), (∀ j (h' : j < ms.length), i < j → ms[j] ≠ ms[i]) → MonMap.find? m ms[i] = cs[i]?) ∧
    (∀ k, k ∉ ms → MonMap.find? m k = none)

/-- **C40 (overloads).**  For all lists of monomials in the same positive number of variables, the overloads taking
vectors (of `ZZ` or of `int64_t`) and the one taking the text of the same data call the main routine with the same
map, in which every listed monomial has the value listed last and no other monomial occurs, and with the same `p`.  Lists
of different lengths stop at the assertion in all of them. -/
theorem C40_overloads {α : Type} (main : MonMap Int → Int → Res α) {n : Nat} (hn : 0 < n) (ms : List IVec)
    (hms : ∀ k ∈ ms, k.length = n) (cs : List Int) (p : Int) (c c' : Char) (hc : isWs c = true) (hc' : isWs c' = true)
    (rest : Str) :
    (ms.length = cs.length → ∃ m, LastWins ms cs m ∧ (m.map Prod.fst).Pairwise LexLt ∧
      zetaVec main ms cs p = main m p ∧ zetaVec64 main ms cs p = main m p ∧
      zetaStr main (showInt p ++ c :: (showMat showInt ms ++ c' :: (showVec showInt cs ++ rest))) = main m p) ∧
    (ms.length ≠ cs.length → zetaVec main ms cs p = .error .assertFail ∧ zetaVec64 main ms cs p = .error .assertFail ∧
      zetaStr main (showInt p ++ c :: (showMat showInt ms ++ c' :: (showVec showInt cs ++ rest))) = .error .assertFail) := by
  have hread : ∀ X, readPoly readInt (c :: (showMat showInt ms ++ X)) = readPoly readInt (showMat showInt ms ++ X) := by
    intro X
    rw [readPoly, readPoly, readVec_ws c _ hc]
  have hint : ∀ X, readInt (showInt p ++ c :: X) = .ok (p, c :: X) := by
    intro X
    exact (rt_int p).read _ (noDigit_sep c _ (Or.inl hc))
  constructor
  · intro hlen
    have hS := readPoly_ok rt_intVec ms cs c' hc' rest
    rw [if_pos hlen, checkKeys_ok hn ms hms, Res.bind_ok] at hS
    obtain ⟨m, hm, h1, h2⟩ := (C44_last_wins hn ms hms cs c' hc' rest).1 hlen
    have em : m = MonMap.setAll [] (ms.zip cs) := by
      rw [hm] at hS
      exact congrArg Prod.fst (Except.ok.inj hS)
    have hV : zetaVec main ms cs p = main m p := by
      rw [zetaVec, decide_eq_true hlen, check_true, Res.bind_ok, checkKeys_ok hn ms hms, Res.bind_ok, em]
      rfl
    refine ⟨m, ⟨h1, h2⟩, ?_, hV, hV, ?_⟩
    · rw [em]
      exact (MonMap.setAll_wf hn _ (fun e he => hms _ (List.of_mem_zip he).1) [] (MonMap.keyLen_nil n) MonMap.sorted_nil).2
    · rw [zetaStr, hint, Res.bind_ok]
      simp only
      rw [hread, hm, Res.bind_ok]
  · intro hlen
    have hV : zetaVec main ms cs p = .error .assertFail := by
      rw [zetaVec, decide_eq_false hlen, check_false]; rfl
    refine ⟨hV, hV, ?_⟩
    rw [zetaStr, hint, Res.bind_ok]
    simp only
    rw [hread, (C44_last_wins hn ms hms cs c' hc' rest).2 hlen]
    rfl

/-- **C40 (mixed lengths).**  Monomials of different lengths stop in the comparison of keys. -/
theorem C40_mixed_lengths {α : Type} (main : MonMap Int → Int → Res α) {n : Nat} (hn : 0 < n) (k : IVec) (ms : List IVec)
    (hk : k.length = n) (h : ∃ k' ∈ ms, k'.length ≠ n) (cs : List Int) (hlen : ms.length + 1 = cs.length) (p : Int) :
    zetaVec main (k :: ms) cs p = .error .abort := by
  rw [zetaVec, decide_eq_true (by simpa using hlen), check_true, Res.bind_ok, checkKeys_abort hn k ms hk h]
  rfl

/-- A monomial listed twice. -/
example : zetaVec (fun m p => .ok (m, p)) [[1, 2], [3, 0], [1, 2]] [5, 6, 7] 11 = .ok ([([1, 2], 7), ([3, 0], 6)], 11) ∧
    zetaStr (fun m p => .ok (m, p)) "11\n[[1 2] [3 0] [1 2]]\n[5 6 7]".toList = .ok ([([1, 2], 7), ([3, 0], 6)], 11) := by
  constructor <;> decide +kernel

/-! ### The model -/

theorem toPoly_reduce (n q : Nat) (f : MonMap Int) : toPoly n (reduceCoeffs q f) = map (Int.castRingHom (ZMod q)) (toPoly n f) := by
  induction f with
  | nil => simp [reduceCoeffs]
  | cons e f ih =>
    rw [reduceCoeffs, List.map_cons, toPoly_cons, toPoly_cons, map_add, map_monomial]
    rw [reduceCoeffs] at ih
    rw [ih]
    rfl

theorem wf_reduce {n : Nat} (q : Nat) {f : MonMap Int} (hf : WFPoly n f) : WFPoly n (reduceCoeffs q f) := by
  refine ⟨?_, ?_⟩
  · intro e he
    obtain ⟨e', he', rfl⟩ := List.mem_map.1 he
    exact hf.1 e' he'
  · have : (reduceCoeffs q f).map Prod.fst = f.map Prod.fst := by
      rw [reduceCoeffs, List.map_map]; rfl
    rw [this]; exact hf.2

theorem map_linSubst {R S : Type} [CommRing R] [CommRing S] (φ : R →+* S) {n : Nat} (M : Fin n → Fin n → R)
    (P : MvPolynomial (Fin n) R) : map φ (linSubst M P) = linSubst (fun i j => φ (M i j)) (map φ P) := by
  induction P using MvPolynomial.induction_on with
  | C a => simp [linSubst]
  | add P Q hP hQ => simp only [map_add, hP, hQ]
  | mul_X P i hP =>
    simp only [map_mul, hP, map_X]
    congr 1
    simp [linSubst]

theorem linSubst_id {R : Type} [CommRing R] {n : Nat} (P : MvPolynomial (Fin n) R) :
    linSubst (fun i j => (1 : Matrix (Fin n) (Fin n) R) i j) P = P := by
  have : linSubst (fun i j => (1 : Matrix (Fin n) (Fin n) R) i j) = AlgHom.id R (MvPolynomial (Fin n) R) := by
    apply MvPolynomial.algHom_ext
    intro i
    simp [linSubst, Matrix.one_apply]
  rw [this]; rfl

theorem isZeroMat_iff {p : Nat} (M : CMat (ZMod p)) {r c : Nat} (hr : M.rows = r) (hc : M.cols = c) :
    isZeroMat M = true ↔ toMat M r c = 0 := by
  subst hr hc
  simp only [isZeroMat, List.all_eq_true, List.mem_range, decide_eq_true_eq]
  constructor
  · intro h; ext i j; exact h i i.isLt j j.isLt
  · intro h i hi j hj
    exact congrFun (congrFun h ⟨i, hi⟩) ⟨j, hj⟩

section
variable {p : Nat} [Fact p.Prime] {q n d : Nat}

/-- The polynomial handed to the Frobenius routine and the branch taken. -/
structure Spec.ModelSpec (p : Nat) [Fact p.Prime] (q n d : Nat) (hpq : p ∣ q) (better : Bool) (f : MonMap Int) (nd : Bool)
    (g : MonMap (ZMod q)) : Prop where
  wf : WFPoly (n + 1) g
  ne : g ≠ []
  hom : ∀ e ∈ g, Spec.deg e.1 = d
  /-- The non-degenerate code only runs on a model that is non-degenerate modulo `p`. -/
  nondeg : nd = true → DegreeInIdeal ((d - 1) * (n + 1) + 1)
    (fun i => X i * pderiv i (map (ZMod.castHom hpq (ZMod p)) (toPoly (n + 1) g)))
  /-- Otherwise `f` is degenerate and unchanged. -/
  degen : nd = false → g = reduceCoeffs q f ∧
    ¬ DegreeInIdeal ((d - 1) * (n + 1) + 1) (fun i => X i * pderiv i (toPoly (n + 1) (reduceCoeffs p f)))
  same : better = false → g = reduceCoeffs q f
  /-- A non-degenerate `f` is not changed. -/
  kept : DegreeInIdeal ((d - 1) * (n + 1) + 1) (fun i => X i * pderiv i (toPoly (n + 1) (reduceCoeffs p f))) →
    nd = true ∧ g = reduceCoeffs q f
  /-- The model is obtained by a change of variables of determinant 1 modulo `p`. -/
  change : ∃ A : Matrix (Fin (n + 1)) (Fin (n + 1)) (ZMod q),
    toPoly (n + 1) g = linSubst (fun i j => A i j) (map (Int.castRingHom (ZMod q)) (toPoly (n + 1) f)) ∧
    (A.map (ZMod.castHom hpq (ZMod p))).det = 1

/-- **C40 (model).**  For every homogeneous integer polynomial: if the partial derivatives modulo `p` do not generate all
monomials of degree `(d-2)(n+1)+1` the routine stops; otherwise it goes on (unless `random_SL_matrix` loops) with
a polynomial and a branch as described in `ModelSpec`: in particular the code for non-degenerate hypersurfaces runs only on
a non-degenerate model. -/
theorem C40_model [NeZero q] (hpq : p ∣ q) (la : RankDet (ZMod p)) (hla : RankDetOK la) (rnd : Rnd (ZMod p)) (t : Nat)
    (better : Bool) (f : MonMap Int) (hf : WFPoly (n + 1) f) (hne : f ≠ []) (hdeg : ∀ e ∈ f, deg e.1 = d) (hd : 2 ≤ d)
    (hsize : ∀ l ≤ (n + 1) * d, (l + n).choose n < 2 ^ 63) :
    (¬ DegreeInIdeal ((d - 2) * (n + 1) + 1) (fun i => pderiv i (toPoly (n + 1) (reduceCoeffs p f))) →
      chooseModel la rnd t q better (reduceCoeffs p f) (reduceCoeffs q f) = .error .abort) ∧
    (DegreeInIdeal ((d - 2) * (n + 1) + 1) (fun i => pderiv i (toPoly (n + 1) (reduceCoeffs p f))) →
      NoCommonZero.{u} (fun i => pderiv i (toPoly (n + 1) (reduceCoeffs p f))) ∧
      (chooseModel la rnd t q better (reduceCoeffs p f) (reduceCoeffs q f) = .ok none ∨
        ∃ nd g, chooseModel la rnd t q better (reduceCoeffs p f) (reduceCoeffs q f) = .ok (some (nd, g)) ∧
          ModelSpec p q n d hpq better f nd g)) := by
  have hfp := wf_reduce p hf
  have hfq := wf_reduce q hf
  have hnep : reduceCoeffs p f ≠ [] := by intro h; exact hne (List.map_eq_nil_iff.1 h)
  have hneq : reduceCoeffs q f ≠ [] := by intro h; exact hne (List.map_eq_nil_iff.1 h)
  have hdp : ∀ e ∈ reduceCoeffs p f, Spec.deg e.1 = d := by
    intro e he; obtain ⟨e', he', rfl⟩ := List.mem_map.1 he; exact hdeg e' he'
  have hdq : ∀ e ∈ reduceCoeffs q f, Spec.deg e.1 = d := by
    intro e he; obtain ⟨e', he', rfl⟩ := List.mem_map.1 he; exact hdeg e' he'
  have hred : map (ZMod.castHom hpq (ZMod p)) (toPoly (n + 1) (reduceCoeffs q f)) = toPoly (n + 1) (reduceCoeffs p f) := by
    rw [toPoly_reduce, toPoly_reduce, map_map]
    congr 2
    exact RingHom.ext_int _ _
  obtain ⟨b, eb, hb, hz⟩ := C37_isSmooth.{u} hpq la hla (reduceCoeffs p f) hfp hnep hdp hd hsize
  obtain ⟨c, ec, hc, -⟩ := C37_isND.{u} hpq la hla (reduceCoeffs p f) hfp hnep hdp (by omega) hsize
  have hone : ModelSpec p q n d hpq better f c (reduceCoeffs q f) := by
    refine ⟨hfq, hneq, hdq, ?_, ?_, fun _ => rfl, fun h => ⟨hc.2 h, rfl⟩, 1, ?_, ?_⟩
    · intro h; rw [hred]; exact hc.1 h
    · intro h
      refine ⟨rfl, fun h' => ?_⟩
      rw [hc.2 h'] at h; cases h
    · rw [linSubst_id, toPoly_reduce]
    · rw [Matrix.map_one _ (map_zero _) (map_one _), Matrix.det_one]
  rw [chooseModel, eb, Res.bind_ok]
  constructor
  · intro h
    have : b = false := by
      cases b with
      | false => rfl
      | true => exact absurd (hb.1 rfl) h
    rw [this]; rfl
  · intro h
    have hbt := hb.2 h
    refine ⟨hz hbt, ?_⟩
    rw [hbt, if_pos rfl, ec, Res.bind_ok]
    cases hcb : (!c && better) with
    | false =>
      rw [if_neg (by simp)]
      exact Or.inr ⟨c, _, rfl, hone⟩
    | true =>
      rw [if_pos rfl]
      rw [Bool.and_eq_true, Bool.not_eq_true'] at hcb
      obtain ⟨rfl, rfl⟩ := hcb
      have hnd : ¬ DegreeInIdeal ((d - 1) * (n + 1) + 1)
          (fun i => X i * pderiv i (toPoly (n + 1) (reduceCoeffs p f))) := fun h' => by
        have := hc.2 h'; cases this
      rcases C38_find_change_of_variables.{u} hpq la hla (reduceCoeffs p f) hfp hnep hdp (by omega) hsize rnd t (p * 100 + 100)
        with h1 | ⟨M, tries, h1, -, hr, hcl, h2⟩
      · left; rw [h1]; rfl
      · right
        rw [h1, Res.bind_ok]
        rcases h2 with ⟨h2, -⟩ | ⟨-, -, h2⟩ | ⟨-, -, hdet, h2, -⟩
        · exact absurd h2 hnd
        · refine ⟨false, reduceCoeffs q f, ?_, hone⟩
          simp only
          rw [if_pos ((isZeroMat_iff M hr hcl).2 h2)]
        · have hnz : ¬ isZeroMat M = true := by
            rw [isZeroMat_iff M hr hcl]
            intro h0
            rw [h0, Matrix.det_zero] at hdet
            exact one_ne_zero hdet.symm
          obtain ⟨g, eg, hg, hpoly⟩ := changeOfVariables_ok (by omega) (reduceCoeffs q f) hfq (liftMat q M) hr hcl
          obtain ⟨hgd, hgne⟩ := changeOfVariables_KD (by omega) hfq hneq hdq (M := liftMat q M) hr eg
          have hentry : ∀ i j : Fin (n + 1), ZMod.castHom hpq (ZMod p) ((liftMat q M).e i j) = toMat M (n + 1) (n + 1) i j := by
            intro i j
            show ZMod.castHom hpq (ZMod p) (((M.e i j).val : ℕ) : ZMod q) = M.e i j
            rw [map_natCast, ZMod.natCast_zmod_val]
          refine ⟨true, g, ?_, hg, hgne, hgd, ?_, fun h => (by cases h), fun h => (by cases h), fun h => absurd h hnd,
            Matrix.of (fun i j => (liftMat q M).e i j), ?_, ?_⟩
          · simp only
            rw [if_neg hnz, eg]; rfl
          · intro _
            rw [hpoly, map_linSubst, hred]
            simp only [hentry]
            exact h2
          · rw [hpoly, toPoly_reduce]; rfl
          · have : (Matrix.of (fun i j : Fin (n + 1) => (liftMat q M).e i j)).map (ZMod.castHom hpq (ZMod p)) =
                toMat M (n + 1) (n + 1) := by
              ext i j; exact hentry i j
            rw [this, hdet]

end

/-! ### The main routine -/

/-- **C40 (the assertion on the basis).**  For every object built by the constructor and every accepted `(n, d)`, the length
of the basis is the one `charpoly_prec` is made for. -/
theorem C40_basis_assertion {R : Type} [CommRing R] {solve : Solver R} {p n d : Nat} (hp : p.Prime) {f : MonMap R}
    {D : DR R} (hC : Constructed solve p f n d D) {a : DefaultArgs} (ha : defaultArgs p n d = .ok a) :
    D.basis.length + 1 = a.charpolyPrec.length := by
  obtain ⟨b, h1, h2⟩ := charpolyPrec_length hp ha
  have h3 := C45_rank hC
  have hd : n < d := by
    obtain ⟨rfl, rfl, hI⟩ := hC.init
    exact hI.ok.hd
  have e : ((n : Int) + 1).toNat = n + 1 := by omega
  rw [e, ← h3] at h2
  have : (b : ℤ) = D.basis.length := mul_left_cancel₀ (by exact_mod_cast (show d ≠ 0 by omega)) h2
  rw [h1]
  omega

example : ∃ D, Constructed exSolve 5 exCurve 2 3 D ∧ defaultArgs (5 : Nat) (2 : Nat) (3 : Nat) = .ok ⟨3, [2, 2], [2, 2, 2]⟩ := by
  obtain ⟨D, hD, -⟩ := exCurve_constructed
  exact ⟨D, hD, rfl⟩

section
variable {p : Nat} [Fact p.Prime] {n d : Nat}

theorem zetaMain_eq (la : RankDet (ZMod p)) (rnd : Rnd (ZMod p)) (t : Nat) (frob : FrobRoutine p) (f : MonMap Int)
    (hf : WFPoly (n + 1) f) (hne : f ≠ []) (hdeg : ∀ e ∈ f, deg e.1 = d) (abs : Int) (increase better : Bool) :
    zetaMain p la rnd t frob f abs increase better = (do
      let z ← choosePrec p n d abs increase
      match ← chooseModel la rnd t (p ^ z.precision.toNat) better (reduceCoeffs p f)
        (reduceCoeffs (p ^ z.precision.toNat) f) with
      | none => .ok none
      | some (nd, g) => do
          let F ← frob z.precision.toNat nd g z.N
          check (decide (F.1 + 1 = z.charpolyPrec.length))
          let cp ← zetaPoly p n abs z (repMat F.2)
          .ok (some (cp, repMat F.2))) := by
  cases f with
  | nil => exact absurd rfl hne
  | cons e f =>
    obtain ⟨k, c⟩ := e
    have h1 : (k.length : Int) - 1 = n := by have := (hf.1 (k, c) (by simp)).1; simp only at this; rw [this]; push_cast; omega
    have h2 : sumVec k = d := by rw [sumVec_eq_sum]; exact hdeg (k, c) (by simp)
    rw [zetaMain]
    simp only [h1, h2]
    congr 1
    funext z
    congr 1
    funext o
    cases o <;> rfl

/-- The sizes of the tables for the accepted `(n, d)`. -/
theorem size_default {a : DefaultArgs} (ha : defaultArgs p n d = .ok a) :
    2 ≤ d ∧ ∀ l ≤ (n + 1) * d, (l + n).choose n < 2 ^ 63 := by
  have hmem : ((n : Int), (d : Int)) ∈ defaultPairs := by
    by_contra hn
    rw [(C12_domain p n d).2 hn] at ha
    cases ha
  simp only [defaultPairs, List.mem_cons, Prod.mk.injEq, List.not_mem_nil, or_false] at hmem
  have : (n = 2 ∨ n = 3) ∧ 2 ≤ d ∧ d ≤ 9 := by omega
  obtain ⟨hn, h2, h9⟩ := this
  refine ⟨h2, ?_⟩
  rcases hn with rfl | rfl
  · intro l hl
    exact lt_of_le_of_lt (Nat.choose_le_choose 2 (show l + 2 ≤ 29 by omega)) (by decide)
  · intro l hl
    exact lt_of_le_of_lt (Nat.choose_le_choose 3 (show l + 3 ≤ 39 by omega)) (by decide)

/-- **C40 (singular input).**  For every `f`, whatever the options: if the precision can be chosen and `f` modulo `p` fails
the criterion of smoothness, the routine stops, without calling the Frobenius routine. -/
theorem C40_singular (la : RankDet (ZMod p)) (hla : RankDetOK la) (rnd : Rnd (ZMod p)) (t : Nat) (frob : FrobRoutine p)
    (f : MonMap Int) (hf : WFPoly (n + 1) f) (hne : f ≠ []) (hdeg : ∀ e ∈ f, deg e.1 = d) (abs : Int)
    (increase better : Bool)
    (hs : ¬ DegreeInIdeal ((d - 2) * (n + 1) + 1) (fun i => pderiv i (toPoly (n + 1) (reduceCoeffs p f)))) :
    zetaMain p la rnd t frob f abs increase better = .error .abort := by
  have hp : p.Prime := Fact.out
  rw [zetaMain_eq la rnd t frob f hf hne hdeg]
  cases hz : choosePrec p n d abs increase with
  | error e =>
    rw [C40_precision_fails p hp n d abs increase e hz]; rfl
  | ok z =>
    have ha : ∃ a, defaultArgs p n d = .ok a := by
      rw [choosePrec, Res.bind_eq_ok] at hz
      obtain ⟨a, ha, -⟩ := hz
      exact ⟨a, ha⟩
    obtain ⟨a, ha⟩ := ha
    obtain ⟨hd, hsize⟩ := size_default ha
    have hpos : 0 < z.precision.toNat := by
      by_cases habs : 0 < abs
      · rcases C40_precision p hp n d abs increase a ha habs with ⟨z', hz', hs'⟩ | ⟨hz', -⟩
        · rw [hz] at hz'
          have := hs'.abs_le
          rw [← Except.ok.inj hz'] at this
          omega
        · rw [hz] at hz'; cases hz'
      · rw [C40_precision_default p n d abs increase (by omega), ha] at hz
        have := (tabNum_ok ha).1
        rw [← Except.ok.inj hz]
        simp only
        omega
    haveI : NeZero (p ^ z.precision.toNat) := ⟨pow_ne_zero _ hp.ne_zero⟩
    rw [Res.bind_ok, (C40_model.{0} (dvd_pow_self p (by omega)) la hla rnd t better f hf hne hdeg hd hsize).1 hs]
    rfl

/-- **C40 (result).**  For every smooth `f` for which the precision is chosen: unless the search for a matrix loops, the
Frobenius routine is called once, with the chosen precision `z`, on a model described by `ModelSpec`; if it returns a
square matrix of the size of the basis, the matrix returned consists of the representatives of its entries; without
lifting the polynomial returned is its characteristic polynomial modulo `p^abs`; and with lifting, if that
characteristic polynomial agrees with a polynomial `P` with the properties of the Frobenius polynomial to the precisions of
the table, the polynomial returned is `P`. -/
theorem C40_result (la : RankDet (ZMod p)) (hla : RankDetOK la) (rnd : Rnd (ZMod p)) (t : Nat) (frob : FrobRoutine p)
    (f : MonMap Int) (hf : WFPoly (n + 1) f) (hne : f ≠ []) (hdeg : ∀ e ∈ f, deg e.1 = d) (abs : Int)
    (increase better : Bool) {a : DefaultArgs} (ha : defaultArgs p n d = .ok a) {z : ZetaPrec}
    (hz : choosePrec p n d abs increase = .ok z)
    (hs : DegreeInIdeal ((d - 2) * (n + 1) + 1) (fun i => pderiv i (toPoly (n + 1) (reduceCoeffs p f)))) :
    abs ≤ z.precision ∧ ∃ h0 : 0 < z.precision.toNat,
    (zetaMain p la rnd t frob f abs increase better = .ok none ∨
    ∃ nd g, ModelSpec p (p ^ z.precision.toNat) n d (dvd_pow_self p (by omega)) better f nd g ∧
      (∀ e, frob z.precision.toNat nd g z.N = .error e →
        zetaMain p la rnd t frob f abs increase better = .error e) ∧
      ∀ (b : Nat) (Φ : Matrix (Fin b) (Fin b) (ZMod (p ^ z.precision.toNat))), 0 < b →
        frob z.precision.toNat nd g z.N = .ok (b, CMat.ofMatrix Φ) →
        (b + 1 ≠ a.charpolyPrec.length →
          zetaMain p la rnd t frob f abs increase better = .error .assertFail) ∧
        (b + 1 = a.charpolyPrec.length →
          (z.lift = false → zetaMain p la rnd t frob f abs increase better =
            .ok (some ((List.range (b + 1)).map (fun i => (Φ.map (fun x => (x.val : ℤ))).charpoly.coeff i % (p : ℤ) ^ abs.toNat),
              CMat.ofMatrix (Φ.map (fun x => (x.val : ℤ)))))) ∧
          (z.lift = true → Odd p → ∀ (P : Polynomial ℤ) (ε : ℤ), P.Monic → P.natDegree = b → WeilRoots P p (n - 1) →
            (ε = 1 ∨ ε = -1) → FunctionalEquation P b p (n - 1) ε →
            (∀ i, 1 ≤ i → i < b → (Φ.map (fun x => (x.val : ℤ))).charpoly.coeff i ≡ P.coeff i
              [ZMOD (p : ℤ) ^ (a.charpolyPrec.getD i 0).toNat]) →
            (ε = 1 ∨ (Even (n - 1) ∧ ∃ j, 1 ≤ j ∧ 2 * j ≤ b ∧
              ¬ (p : ℤ) ^ (min (a.charpolyPrec.getD j 0)
                (a.charpolyPrec.getD (b - j) 0 + halfWeight b (n - 1) j)).toNat ∣ P.coeff j)) →
            zetaMain p la rnd t frob f abs increase better =
              .ok (some ((List.range (b + 1)).map P.coeff, CMat.ofMatrix (Φ.map (fun x => (x.val : ℤ)))))))) := by
  have hp : p.Prime := Fact.out
  obtain ⟨hd, hsize⟩ := size_default ha
  have hzz : abs ≤ z.precision ∧ 0 < z.precision ∧ z.charpolyPrec = a.charpolyPrec ∧ (z.lift = false → 0 < abs) := by
    by_cases habs : 0 < abs
    · rcases C40_precision p hp n d abs increase a ha habs with ⟨z', hz', hs'⟩ | ⟨hz', -⟩
      · rw [hz] at hz'
        rw [Except.ok.inj hz']
        have := hs'.abs_le
        exact ⟨this, by omega, hs'.charpoly, fun _ => habs⟩
      · rw [hz] at hz'; cases hz'
    · rw [C40_precision_default p n d abs increase (by omega), ha] at hz
      have := (tabNum_ok ha).1
      rw [← Except.ok.inj hz]
      exact ⟨by show abs ≤ a.precision; omega, this, rfl, fun h => (by cases h)⟩
  obtain ⟨habs, hpos, hcp, hlift⟩ := hzz
  haveI : NeZero (p ^ z.precision.toNat) := ⟨pow_ne_zero _ hp.ne_zero⟩
  refine ⟨habs, by omega, ?_⟩
  rw [zetaMain_eq la rnd t frob f hf hne hdeg, hz, Res.bind_ok]
  have h0 : z.precision.toNat ≠ 0 := by omega
  obtain ⟨-, h⟩ := (C40_model.{0} (dvd_pow_self p h0) la hla rnd t better f hf hne hdeg hd hsize).2 hs
  rcases h with h | ⟨nd, g, h, hM⟩
  · left; rw [h]; rfl
  · right
    refine ⟨nd, g, hM, ?_, ?_⟩
    · intro e he
      rw [h, Res.bind_ok]
      simp only
      rw [he]; rfl
    · intro b Φ hb hF
      rw [h, Res.bind_ok]
      simp only
      rw [hF, Res.bind_ok]
      simp only
      have hrep : repMat (CMat.ofMatrix Φ) = CMat.ofMatrix (Φ.map (fun x => (x.val : ℤ))) := by
        simp only [repMat, CMat.ofMatrix, CMat.mk.injEq, true_and]
        funext i j
        split_ifs <;> simp
      rw [hrep, hcp]
      refine ⟨fun hne => by rw [decide_eq_false hne, check_false]; rfl, fun heq => ?_⟩
      rw [decide_eq_true heq, check_true, Res.bind_ok]
      refine ⟨fun hl => ?_, fun hl hodd P ε hmon hnat hW hε hfe hA hsign => ?_⟩
      · have := hlift hl
        rw [zetaPoly, hl, if_neg (by simp), C13_charpoly hb, Res.bind_ok, powerZZ, if_neg (by omega), Res.bind_ok,
          Res.bind_ok, List.map_map]
        rfl
      · have h3 : 3 ≤ p := by
          have := hp.two_le
          rcases hodd with ⟨k, hk⟩
          omega
        obtain ⟨b', h1, h2⟩ := charpolyPrec_length hp ha
        have e : ((n : Int) - 1).toNat = n - 1 := by omega
        rw [zetaPoly, hl, if_pos rfl, hcp]
        have := C14_default_precisions p h3 hodd n d a ha (b := b)
          (by rw [show b = b' by omega]; exact h2) (Φ.map (fun x => (x.val : ℤ))) P hmon hnat (by rw [e]; exact hW) ε hε
          (by rw [e]; exact hfe) hA (by rw [e]; exact hsign)
        rw [this, Res.bind_ok]

end

/-! ### Examples -/

/-- `x^3 + y^3 + z^3` and `x^3`. -/
def exFermat : MonMap Int := [([0, 0, 3], 1), ([0, 3, 0], 1), ([3, 0, 0], 1)]
def exTriple : MonMap Int := [([3, 0, 0], 1)]

local instance : Fact (Nat.Prime 5) := ⟨by norm_num⟩

theorem exFermat_pderiv (i : Fin 3) :
    pderiv i (toPoly 3 (reduceCoeffs 5 exFermat)) = monomial (Finsupp.single i 2) (3 : ZMod 5) := by
  have h : toPoly 3 (reduceCoeffs 5 exFermat) = X 0 ^ 3 + X 1 ^ 3 + X 2 ^ 3 := by
    have e : ∀ k : IVec, ∀ j : Fin 3, expo 3 k = Finsupp.single j 3 →
        monomial (expo 3 k) ((1 : Int) : ZMod 5) = X j ^ 3 := by
      intro k j hk; rw [hk, Int.cast_one, X_pow_eq_monomial]
    rw [exFermat, reduceCoeffs, List.map_cons, List.map_cons, List.map_cons, List.map_nil, toPoly_cons, toPoly_cons,
      toPoly_cons, toPoly_nil, e [0, 0, 3] 2, e [0, 3, 0] 1, e [3, 0, 0] 0]
    · ring
    all_goals
      ext j
      rw [expo_apply]
      fin_cases j <;> simp [Finsupp.single_apply]
  rw [h]
  have hx : ∀ j : Fin 3, pderiv i ((X j : MvPolynomial (Fin 3) (ZMod 5)) ^ 3) =
      if i = j then monomial (Finsupp.single i 2) (3 : ZMod 5) else 0 := by
    intro j
    rw [pderiv_pow, pderiv_X]
    by_cases hij : i = j
    · subst hij
      rw [if_pos rfl, Pi.single_eq_same, mul_one, X_pow_eq_monomial]
      have : ((3 : ℕ) : MvPolynomial (Fin 3) (ZMod 5)) = C (3 : ZMod 5) := by rw [← C_eq_coe_nat]; rfl
      rw [this, C_mul_monomial, mul_one]
    · rw [if_neg hij, Pi.single_eq_of_ne (Ne.symm hij), mul_zero]
  rw [map_add, map_add, hx, hx, hx]
  fin_cases i <;> simp

theorem exFermat_smooth :
    DegreeInIdeal ((3 - 2) * (2 + 1) + 1) (fun i : Fin (2 + 1) => pderiv i (toPoly (2 + 1) (reduceCoeffs 5 exFermat))) := by
  intro a ha
  obtain ⟨i, hi⟩ : ∃ i, 2 ≤ a i := by
    by_contra hcon
    push Not at hcon
    rw [Fin.sum_univ_three] at ha
    have := hcon 0; have := hcon 1; have := hcon 2
    omega
  have e : monomial a (1 : ZMod 5) = monomial (a - Finsupp.single i 2) 2 *
      pderiv i (toPoly (2 + 1) (reduceCoeffs 5 exFermat)) := by
    have e1 : a - Finsupp.single i 2 + Finsupp.single i 2 = a := by
      ext j
      by_cases hij : i = j
      · subst hij; simp; omega
      · simp [Finsupp.single_apply, hij]
    rw [exFermat_pderiv i, monomial_mul, e1]
    rfl
  rw [e]
  exact Ideal.mul_mem_left _ _ (Ideal.subset_span ⟨i, rfl⟩)

/-- The hypotheses of `C40_result`, for the Fermat cubic modulo 5. -/
example : WFPoly (2 + 1) exFermat ∧ exFermat ≠ [] ∧ (∀ e ∈ exFermat, deg e.1 = (3 : Nat)) ∧
    choosePrec 5 (2 : Nat) (3 : Nat) 0 true = .ok ⟨3, [2, 2], [2, 2, 2], true⟩ ∧
    DegreeInIdeal ((3 - 2) * (2 + 1) + 1) (fun i : Fin (2 + 1) => pderiv i (toPoly (2 + 1) (reduceCoeffs 5 exFermat))) := by
  refine ⟨?_, by decide, by unfold exFermat; decide, ?_, exFermat_smooth⟩
  · unfold exFermat WFPoly NonNeg LexLt; decide
  · rw [C40_precision_default _ _ _ _ _ (by norm_num)]; rfl

/-- The hypotheses of `C40_singular`, for a triple line. -/
example : WFPoly (2 + 1) exTriple ∧ exTriple ≠ [] ∧ (∀ e ∈ exTriple, deg e.1 = (3 : Nat)) ∧
    ¬ DegreeInIdeal ((3 - 2) * (2 + 1) + 1) (fun i : Fin (2 + 1) => pderiv i (toPoly (2 + 1) (reduceCoeffs 5 exTriple))) := by
  refine ⟨?_, by decide, by unfold exTriple; decide, ?_⟩
  · unfold exTriple WFPoly NonNeg LexLt; decide
  · intro h
    have hz := noCommonZero_of_ideal.{0} (by norm_num) h (ZMod 5) (fun j => if j = 1 then 1 else 0) (by
      intro i
      have e : toPoly (2 + 1) (reduceCoeffs 5 exTriple) = X 0 ^ 3 := by
        rw [exTriple, reduceCoeffs, List.map_cons, List.map_nil, toPoly_cons, toPoly_nil, add_zero, Int.cast_one,
          X_pow_eq_monomial]
        have e1 : expo (2 + 1) [3, 0, 0] = Finsupp.single 0 3 := by
          ext j
          rw [expo_apply]
          fin_cases j <;> simp [Finsupp.single_apply]
        simp only [e1]
      rw [e, pderiv_pow, map_mul, map_mul, map_pow, aeval_X]
      simp)
    have := congrFun hz 1
    simp at this

end Verif
