import Verif.Lemmas.SolveUnique
import Verif.Lemmas.MonoPadic

/-!
C83: `solve_system` returns the same `B` and `U` whatever the implementation and the elimination routine:
`U` is the only solution that does not use the columns depending on earlier columns.
-/

namespace Verif

open Spec Finset

/-- **C83 (which solution, over a field).**  `solve_system_zz_p`, in both implementations and with every
elimination routine meeting the contract, returns a solution whose rows at the columns depending on earlier
columns are zero, and every such solution for the same `B` has the same entries. -/
theorem C83_solve_system_unique {F : Type} [Field F] [DecidableEq F] (la : LinAlg F) (hla : LinAlgOK la)
    (flint : Bool) (T : CMat F) :
    ∃ B U, solveSystemZZp la flint T = .ok (B, U) ∧ ReducedSolution T T B U ∧
      ∀ U', ReducedSolution T T B U' → ∀ i b, i < T.cols + B.length → b < T.rows → U'.e i b = U.e i b := by
  obtain ⟨B, U, r, c, e, h, -, h1, h2, h3, -, h5⟩ := solveSystemZZp_reduced la hla flint T
  refine ⟨B, U, e, h, fun U' h' i b hi hb => ?_⟩
  exact solves_unique h1 h2 h3 h'.solves h.solves (fun l hl hd => h'.zero l hl ((h5 l hl).1 hd))
    (fun l hl hd => h.zero l hl ((h5 l hl).1 hd)) i b hi hb

/-- **C83 (same answer, over a field).**  The FLINT and the NTL version of `solve_system_zz_p` return the same
`B` and the same `U`, for any two elimination routines meeting the contract. -/
theorem C83_solve_system {F : Type} [Field F] [DecidableEq F] (la la' : LinAlg F) (hla : LinAlgOK la)
    (hla' : LinAlgOK la') (flint flint' : Bool) (T : CMat F) :
    solveSystemZZp la flint T = solveSystemZZp la' flint' T := by
  obtain ⟨B, U, r, c, e, h, hn, h1, h2, h3, h4, h5⟩ := solveSystemZZp_reduced la hla flint T
  obtain ⟨B', U', r', c', e', h', hn', -, -, -, h4', -⟩ := solveSystemZZp_reduced la' hla' flint' T
  have hB : B = B' := sorted_ext h.solves.sorted h'.solves.sorted (fun b => by rw [h4, h4'])
  subst hB
  have hU : U = U' := by
    refine CMat.normal_ext hn hn' (by rw [h.solves.rows, h'.solves.rows]) (by rw [h.solves.cols, h'.solves.cols])
      (fun i b hi hb => ?_)
    rw [h.solves.rows] at hi
    rw [h.solves.cols] at hb
    exact solves_unique h1 h2 h3 h.solves h'.solves (fun l hl hd => h.zero l hl ((h5 l hl).1 hd))
      (fun l hl hd => h'.zero l hl ((h5 l hl).1 hd)) i b hi hb
  rw [e, e', hU]

/-- **C83 (which solution, modulo `p^N`).**  The same for `solve_system_padic`: the columns which depend modulo
`p` on earlier columns are not used, and this determines `U` modulo `p^N`. -/
theorem C83_padic_unique {p N : Nat} [Fact p.Prime] (la : LinAlg (ZMod p)) (hla : LinAlgOK la) (flint : Bool)
    (T : CMat (ZMod (p ^ N))) (precision : Nat) (hprec : N ≤ precision) :
    ∃ B U, solveSystemPadic la flint T precision = .ok (B, U) ∧
      ReducedSolution (T.map (fun x => (x.val : ZMod p))) T B U ∧
      ∀ U', ReducedSolution (T.map (fun x => (x.val : ZMod p))) T B U' →
        ∀ i b, i < T.cols + B.length → b < T.rows → U'.e i b = U.e i b := by
  obtain ⟨B, U, r, c, e, h, -, h1, h2, h3, -, h5⟩ := solveSystemPadic_reduced la hla flint T precision hprec
  refine ⟨B, U, e, h, fun U' h' i b hi hb => ?_⟩
  exact solves_unique h1 h2 h3 h'.solves h.solves (fun l hl hd => h'.zero l hl ((h5 l hl).1 hd))
    (fun l hl hd => h.zero l hl ((h5 l hl).1 hd)) i b hi hb

/-- **C83 (same answer, modulo `p^N`).**  `solve_system_padic_flint`, with machine words or with integers
reduced modulo growing powers of `p`, and `solve_system_padic_NTL` return the same `B` and the same `U`, for
any two elimination routines meeting the contract and any two precisions of at least `N`.  So the solver used by
the constructors and by the reductions is one function of the matrix. -/
theorem C83_padic {p N : Nat} [Fact p.Prime] (la la' : LinAlg (ZMod p)) (hla : LinAlgOK la) (hla' : LinAlgOK la')
    (flint flint' : Bool) (precision precision' : Nat) (hprec : N ≤ precision) (hprec' : N ≤ precision') :
    padicSolver p N la flint precision = padicSolver p N la' flint' precision' := by
  funext T
  obtain ⟨B, U, r, c, e, h, hn, h1, h2, h3, h4, h5⟩ := solveSystemPadic_reduced la hla flint T precision hprec
  obtain ⟨B', U', r', c', e', h', hn', -, -, -, h4', -⟩ :=
    solveSystemPadic_reduced la' hla' flint' T precision' hprec'
  have hB : B = B' := sorted_ext h.solves.sorted h'.solves.sorted (fun b => by rw [h4, h4'])
  subst hB
  have hU : U = U' := by
    refine CMat.normal_ext hn hn' (by rw [h.solves.rows, h'.solves.rows]) (by rw [h.solves.cols, h'.solves.cols])
      (fun i b hi hb => ?_)
    rw [h.solves.rows] at hi
    rw [h.solves.cols] at hb
    exact solves_unique h1 h2 h3 h.solves h'.solves (fun l hl hd => h.zero l hl ((h5 l hl).1 hd))
      (fun l hl hd => h'.zero l hl ((h5 l hl).1 hd)) i b hi hb
  rw [padicSolver, padicSolver, e, e', hU]

local instance solveUniquePrime7 : Fact (Nat.Prime 7) := ⟨by norm_num⟩

/-- The contract can be met over `F_7`, and `5 <= 5`. -/
example : (∃ la : LinAlg (ZMod 7), LinAlgOK la) ∧ 5 ≤ 5 := ⟨exists_linAlg (ZMod 7), le_refl _⟩

/-- `(T | J) U = 1` alone does not determine `U`: for `T = (1 1)` both columns can be used.  The second depends
on the first, so the first solution is the one returned. -/
example : let T : CMat ℚ := ⟨1, 2, fun _ _ => 1⟩
    ReducedSolution T T [] ⟨2, 1, fun i _ => if i = 0 then 1 else 0⟩ ∧
    Solves T [] ⟨2, 1, fun i _ => if i = 1 then 1 else 0⟩ ∧
    ¬ ReducedSolution T T [] ⟨2, 1, fun i _ => if i = 1 then 1 else 0⟩ := by
  intro T
  have hd : DependentCol T 1 := ⟨fun _ => 1, by intro j _; simp [T]⟩
  have hs : ∀ k, k < 2 → Solves T [] ⟨2, 1, fun i _ => if i = k then 1 else 0⟩ := by
    intro k hk
    refine ⟨List.Pairwise.nil, by simp, rfl, rfl, ?_⟩
    ext i j
    obtain rfl : i = ⟨0, Nat.one_pos⟩ := Fin.ext (Nat.lt_one_iff.1 i.isLt)
    obtain rfl : j = ⟨0, Nat.one_pos⟩ := Fin.ext (Nat.lt_one_iff.1 j.isLt)
    rw [augment_mul_apply]
    interval_cases k <;> simp [T, Finset.sum_range_succ]
  refine ⟨⟨hs 0 (by decide), ?_⟩, hs 1 (by decide), ?_⟩
  · intro l hl hdl b hb
    have : l ≠ 0 := by
      rintro rfl
      obtain ⟨a, ha⟩ := hdl
      have := ha 0 Nat.one_pos
      simp [T] at this
    exact if_neg this
  · intro h
    have := h.zero 1 (by decide) hd 0 Nat.one_pos
    simp at this

/-! ### matrices with one entry in every column -/

/-- Every column has at most one non-zero entry, and every row which is not zero has a unit. -/
def monoShape {R : Type} [CommRing R] [DecidableEq R] (inv : R → Option R) (T : CMat R) : Bool :=
  (monoRows inv T).all (fun r => (List.range T.cols).all (fun c => decide (T.e r c = 0))) &&
  (List.range T.cols).all (fun c => (List.range T.rows).all (fun r =>
    decide (T.e r c = 0) || (List.range T.rows).all (fun r' => decide (r' = r ∨ T.e r' c = 0))))

/-- On these matrices `solve_system_padic` returns what `monoSolver` returns. -/
theorem padicSolver_mono {p N : Nat} [Fact p.Prime] (hN : 1 ≤ N) (la : LinAlg (ZMod p)) (hla : LinAlgOK la)
    (flint : Bool) (precision : Nat) (hprec : N ≤ precision) {inv : ZMod (p ^ N) → Option (ZMod (p ^ N))}
    (hinv : ∀ x y, inv x = some y → x * y = 1) (hinv' : ∀ x, inv x = none → redMod p N hN x = 0)
    (T : CMat (ZMod (p ^ N))) (h : monoShape inv T = true) :
    padicSolver p N la flint precision T = monoSolver inv T := by
  rw [monoShape, Bool.and_eq_true] at h
  obtain ⟨hcert, hcol⟩ := h
  have hcol' : ∀ c, c < T.cols → ∀ r, r < T.rows → T.e r c ≠ 0 → ∀ r', r' < T.rows → r' ≠ r → T.e r' c = 0 := by
    intro c hc r hr hne r' hr' hrr
    have h1 := List.all_eq_true.1 (List.all_eq_true.1 hcol c (List.mem_range.2 hc)) r (List.mem_range.2 hr)
    rw [Bool.or_eq_true] at h1
    rcases h1 with h1 | h1
    · exact absurd (of_decide_eq_true h1) hne
    · have := of_decide_eq_true (List.all_eq_true.1 h1 r' (List.mem_range.2 hr'))
      tauto
  have e0 : certSolver inv T = monoSolver inv T := by rw [certSolver, if_pos hcert]
  obtain ⟨B, U, r, c, e, h, hn, h1, h2, h3, h4, h5⟩ := solveSystemPadic_reduced la hla flint T precision hprec
  obtain ⟨BM, UM, eM, hM⟩ := monoSolver_ok hinv T
  obtain ⟨U1, e1⟩ := certSolver_padic hN la hla flint precision hprec hinv T (BM, UM) (by rw [e0, eM])
  rw [padicSolver, e] at e1
  cases e1
  have hUM : UM.Normal := by
    rw [monoSolver] at eM
    cases eM
    exact CMat.normal_mk' _ _ _
  have hm : ∀ i j, i < T.rows → j < T.cols →
      (T.map (fun x => (x.val : ZMod p))).e i j = redMod p N hN (T.e i j) := by
    intro i j hi hj
    simp only [CMat.map, CMat.mk', if_pos (And.intro hi hj)]
    rw [redMod_val]
  have hz : ∀ l, l < T.cols → DependentCol (T.map (fun x => (x.val : ZMod p))) l → ∀ b, b < T.rows → UM.e l b = 0 := by
    intro l hl hd b hb
    rw [monoSolver] at eM
    cases eM
    simp only [CMat.mk']
    split
    swap
    · rfl
    cases hp : monoPivot inv T b with
    | none => simp only; rw [if_neg (by omega)]
    | some cy =>
      obtain ⟨c0, y⟩ := cy
      simp only
      rw [if_neg]
      rintro rfl
      obtain ⟨a, ha⟩ := hd
      have hb' := ha b hb
      rw [hm b l hb hl, Finset.sum_eq_zero] at hb'
      · obtain ⟨-, q2, -⟩ := monoPivot_spec hinv hp
        have h6 := congrArg (redMod p N hN) q2
        rw [map_mul, hb', zero_mul, map_one] at h6
        exact zero_ne_one h6
      · intro k hk
        have hk' := Finset.mem_range.1 hk
        rw [hm b k hb (by omega)]
        suffices redMod p N hN (T.e b k) = 0 by rw [this, mul_zero]
        by_contra hne
        -- `k` would have been found first
        rw [monoPivot, List.findSome?_eq_some_iff] at hp
        obtain ⟨l1, c1, l2, el, hs, hb1⟩ := hp
        have hc1 : c1 = l := by
          split at hs
          · rw [Option.map_eq_some_iff] at hs
            obtain ⟨x, -, hx⟩ := hs
            exact congrArg Prod.fst hx
          · cases hs
        subst hc1
        have hmem : k ∈ l1 := by
          have hsort : (l1 ++ c1 :: l2).Pairwise (· < ·) := by rw [← el]; exact List.pairwise_lt_range
          have hk2 : k ∈ l1 ++ c1 :: l2 := by rw [← el]; exact List.mem_range.2 (by omega)
          rcases List.mem_append.1 hk2 with hk3 | hk3
          · exact hk3
          · exfalso
            rcases List.mem_cons.1 hk3 with hk4 | hk4
            · omega
            · have := List.rel_of_pairwise_cons (List.pairwise_append.1 hsort).2.1 hk4
              omega
        have h7 := hb1 k hmem
        rw [if_pos] at h7
        · rw [Option.map_eq_none_iff] at h7
          exact hne (hinv' _ h7)
        · refine List.all_eq_true.2 (fun r' hr' => decide_eq_true ?_)
          by_cases hrr : r' = b
          · exact Or.inl hrr
          · refine Or.inr (hcol' k (by omega) b hb ?_ r' (List.mem_range.1 hr') hrr)
            intro h0
            rw [h0, map_zero] at hne
            exact hne rfl
  rw [padicSolver, e, eM]
  congr 2
  refine CMat.normal_ext hn hUM (by rw [h.solves.rows, hM.rows]) (by rw [h.solves.cols, hM.cols]) (fun i b hi hb => ?_)
  rw [h.solves.rows] at hi
  rw [h.solves.cols] at hb
  exact solves_unique h1 h2 h3 h.solves hM (fun l hl hd => h.zero l hl ((h5 l hl).1 hd))
    (fun l hl hd => hz l hl ((h5 l hl).1 hd)) i b hi hb

end Verif
