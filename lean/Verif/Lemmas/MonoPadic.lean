import Verif.Lemmas.MonoSolver
import Verif.Lemmas.PathIndep
import Verif.Props.SolveSystem

/-!
For the examples: on matrices whose rows are zero or have a pivot column, `solve_system_padic` picks the
rows that `monoSolver` picks.  So the constructor can be evaluated with `monoSolver`.
-/

namespace Verif

open Spec

/-- `monoSolver`, refusing every matrix with a row that is not zero and has no pivot column. -/
def certSolver {R : Type} [CommRing R] [DecidableEq R] (inv : R → Option R) : Solver R := fun T =>
  if (monoRows inv T).all (fun r => (List.range T.cols).all (fun c => decide (T.e r c = 0))) then monoSolver inv T
  else .error .abort

theorem certSolver_padic {p N : ℕ} [Fact p.Prime] (hN : 1 ≤ N) (la : LinAlg (ZMod p)) (hla : LinAlgOK la)
    (flint : Bool) (precision : ℕ) (hprec : N ≤ precision) {inv : ZMod (p ^ N) → Option (ZMod (p ^ N))}
    (hinv : ∀ x y, inv x = some y → x * y = 1) (T : CMat (ZMod (p ^ N))) (BU)
    (h : certSolver inv T = .ok BU) : ∃ U, padicSolver p N la flint precision T = .ok (BU.1, U) := by
  rw [certSolver] at h
  split at h
  swap
  · cases h
  rename_i hall
  obtain ⟨B, U, e, hsol⟩ := C20_padic la hla flint T precision hprec
  have hB := (C20_same_basis la la hla hla flint flint T precision hprec B B U U e e).2
  have hBU : BU.1 = monoRows inv T := by rw [← Except.ok.inj h]
  refine ⟨U, ?_⟩
  rw [padicSolver, e, hBU]
  congr 2
  refine sorted_ext hsol.sorted (List.Pairwise.filter _ (List.pairwise_lt_range (n := T.rows))) (fun b => ?_)
  rw [hB b]
  have hm : ∀ i j, i < T.rows → j < T.cols →
      (T.map (fun x => (x.val : ZMod p))).e i j = redMod p N hN (T.e i j) := by
    intro i j hi hj
    simp only [CMat.map, CMat.mk', if_pos (And.intro hi hj)]
    rw [redMod_val]
  have hmem : b ∈ monoRows inv T ↔ b < T.rows ∧ monoPivot inv T b = none := by
    rw [monoRows, List.mem_filter, List.mem_range, Option.isNone_iff_eq_none]
  constructor
  · rintro ⟨hb, a, ha⟩
    rw [hmem]
    refine ⟨hb, ?_⟩
    by_contra hne
    obtain ⟨⟨c, y⟩, hp⟩ := Option.ne_none_iff_exists'.1 hne
    obtain ⟨h1, h2, h3⟩ := monoPivot_spec hinv hp
    have h4 := ha c h1
    rw [hm b c hb h1, Finset.sum_eq_zero] at h4
    · have h5 := congrArg (redMod p N hN) h2
      rw [map_mul, h4, zero_mul, map_one] at h5
      exact zero_ne_one h5
    · intro l hl
      have hl' := Finset.mem_range.1 hl
      rw [hm l c (by omega) h1, h3 l (by omega) (by omega), map_zero, mul_zero]
  · intro hb
    have hb' := hmem.1 hb
    refine ⟨hb'.1, fun _ => 0, fun j hj => ?_⟩
    have hj' : j < T.cols := hj
    have := of_decide_eq_true (List.all_eq_true.1 (List.all_eq_true.1 hall b hb) j (List.mem_range.2 hj'))
    rw [hm b j hb'.1 hj', this, map_zero]
    simp

theorem forRange_refine {σ : Type} {g g' : ℕ → σ → Res σ} (h : ∀ i s r, g i s = .ok r → g' i s = .ok r) (n : ℕ) :
    ∀ s r, forRange n s g = .ok r → forRange n s g' = .ok r := by
  induction n with
  | zero => intro s r e; exact e
  | succ n ih =>
    intro s r e
    rw [forRange, Res.bind_eq_ok] at e
    obtain ⟨s1, e1, e2⟩ := e
    rw [forRange, ih _ _ e1]
    exact h _ _ _ e2

theorem init_refine {R : Type} [CommRing R] {s s' : Solver R}
    (h : ∀ T BU, s T = .ok BU → ∃ U, s' T = .ok (BU.1, U)) {p : ℕ}
    {f : MonMap R} {D : DR R} (hD : DR.init s p f = .ok D) : DR.init s' p f = .ok D := by
  have hJ : ∀ D l BU, solveJ s D l = .ok BU → ∃ U, solveJ s' D l = .ok (BU.1, U) := by
    intro D l BU e
    rw [solveJ, Res.bind_eq_ok] at e
    obtain ⟨T, e1, e2⟩ := e
    obtain ⟨U, e3⟩ := h T BU e2
    exact ⟨U, by rw [solveJ, e1]; exact e3⟩
  have hI : ∀ D r, initBasis s D = .ok r → initBasis s' D = .ok r := by
    intro D r e
    unfold initBasis at e ⊢
    refine forRange_refine (fun i acc r e => ?_) _ _ _ e
    rw [Res.bind_eq_ok] at e
    obtain ⟨BU, e1, e2⟩ := e
    obtain ⟨U, e3⟩ := hJ _ _ _ e1
    show (solveJ s' D _ >>= _) = _
    rw [e3]
    exact e2
  cases f with
  | nil => cases hD
  | cons e f =>
    obtain ⟨k, c⟩ := e
    unfold DR.init at hD ⊢
    simp only at hD ⊢
    split at hD
    · cases hD
    · rename_i hc
      rw [if_neg hc]
      rw [Res.bind_eq_ok] at hD
      obtain ⟨u1, e1, hD⟩ := hD
      rw [e1, Res.bind_ok]
      rw [Res.bind_eq_ok] at hD
      obtain ⟨u2, e2, hD⟩ := hD
      rw [e2, Res.bind_ok]
      rw [Res.bind_eq_ok] at hD
      obtain ⟨tl, e3, hD⟩ := hD
      rw [e3, Res.bind_ok]
      rw [Res.bind_eq_ok] at hD
      obtain ⟨BU, e4, hD⟩ := hD
      obtain ⟨U, e4'⟩ := hJ _ _ _ e4
      rw [e4', Res.bind_ok]
      rw [Res.bind_eq_ok] at hD
      obtain ⟨u5, e5, hD⟩ := hD
      rw [e5, Res.bind_ok]
      rw [Res.bind_eq_ok] at hD
      obtain ⟨bs, e6, hD⟩ := hD
      rw [hI _ _ e6, Res.bind_ok]
      exact hD

end Verif
