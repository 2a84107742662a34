import Verif.Model.ZetaI64
import Verif.Props.FrobI64
import Verif.Props.FrobJI64
import Verif.Props.ZetaThreads

/-!
Property C90 for `zeta_function`.
-/

namespace Verif

open Spec

section

variable {p n d : ℕ} [hprime : Fact p.Prime]

/-- **C90 for the two branches of `zeta_function`.**  Equal results, whether they return or not. -/
theorem C90_routine {K : ℕ} (hK : 1 ≤ K) {la : LinAlg (ZMod p)} (hla : LinAlgOK la) (flint pre : Bool) (order : ℕ → List ℕ)
    (hn : 1 ≤ n) {g : MonMap (ZMod (p ^ K))} (hg : WFPoly (n + 1) g)
    (hdeg : ∀ e ∈ g, deg e.1 = d) (hsize : ∀ l ≤ (n + 1) * d, (l + n).choose n < 2 ^ 63) (nd : Bool) (N : List ℤ)
    (hN : ∀ k ∈ N, p * ((n + k.toNat - 1) * d) < 2 ^ 63) :
    frobRoutine64 p la flint pre order K nd g N = frobRoutine p la flint pre order K nd g N := by
  have : Nontrivial (ZMod (p ^ K)) := nontrivial_pow (p := p) hK
  have hsol := padicSolver_ok hla flint (le_refl K)
  have hp : 1 ≤ p := hprime.out.one_lt.le
  cases nd with
  | true =>
    rw [frobRoutine64, frobRoutine, if_pos rfl, if_pos rfl]
    cases hD : ND.init (fun T => solveSystemPadic la flint T K) p g with
    | error x => rw [Res.bind_error, Res.bind_error]
    | ok D =>
      have hC : ConstructedND (padicSolver p K la flint K) p g n d D := ⟨hsol, hg, hdeg, hsize, hD⟩
      have hT : Reached n g (fpowStart D.n) := by rw [hC.init.1]; exact reached_start n g
      rw [Res.bind_ok, Res.bind_ok]
      exact congrArg (fun x => x >>= _) (C90_frob_matrix_ND hC hn hT hp pre (order D.basis.length) N hN)
  | false =>
    rw [frobRoutine64, frobRoutine, if_neg (by decide), if_neg (by decide)]
    cases hD : DR.init (fun T => solveSystemPadic la flint T K) p g with
    | error x => rw [Res.bind_error, Res.bind_error]
    | ok D =>
      have hC : Constructed (padicSolver p K la flint K) p g n d D := ⟨hsol, hg, hdeg, hsize, hD⟩
      have hT : Reached n g (fpowStart D.n) := by rw [hC.init.1]; exact reached_start n g
      rw [Res.bind_ok, Res.bind_ok]
      exact congrArg (fun x => x >>= _) (C90_frob_matrix_J hC hn hT hp pre (order D.basis.length) N hN)

/-- A routine used for the numbers of terms below the bound only. -/
noncomputable def onlyBelow (n d : ℕ) (a b : FrobRoutine p) : FrobRoutine p := fun K nd g N =>
  open Classical in if ∀ k ∈ N, p * ((n + k.toNat - 1) * d) < 2 ^ 63 then a K nd g N else b K nd g N

theorem zetaMain_onlyBelow (la : RankDet (ZMod p)) (rnd : Rnd (ZMod p)) (t : ℕ) (a b : FrobRoutine p) (f : MonMap Int)
    (hf : WFPoly (n + 1) f) (hne : f ≠ []) (hdeg : ∀ e ∈ f, deg e.1 = d) (abs : ℤ) (increase better : Bool)
    (hz : ∀ z, choosePrec p n d abs increase = .ok z → ∀ k ∈ z.N, p * ((n + k.toNat - 1) * d) < 2 ^ 63) :
    zetaMain p la rnd t (onlyBelow n d a b) f abs increase better = zetaMain p la rnd t a f abs increase better := by
  rw [zetaMain_eq la rnd t _ f hf hne hdeg, zetaMain_eq la rnd t _ f hf hne hdeg]
  cases hc : choosePrec p n d abs increase with
  | error x => rw [Res.bind_error, Res.bind_error]
  | ok z =>
    have h := hz z hc
    rw [Res.bind_ok, Res.bind_ok]
    have : ∀ nd g, onlyBelow n d a b z.precision.toNat nd g z.N = a z.precision.toNat nd g z.N := fun nd g => by
      rw [onlyBelow, if_pos h]
    simp only [this]

/-- **C90 for `zeta_function`.**  For every homogeneous integer polynomial, prime and options such that `p (n + N_i - 1) d < 2^63` for the
numbers of terms `N_i` the options lead to: `zeta_function` returns a value if and only if it returns it with every operation on exponent
vectors in `int64_t`. -/
theorem C90_zeta (la : RankDet (ZMod p)) (hla : RankDetOK la) (rnd : Rnd (ZMod p)) (t : ℕ) {la' : LinAlg (ZMod p)}
    (hla' : LinAlgOK la') (flint pre : Bool) (order : ℕ → List ℕ) (f : MonMap Int)
    (hf : WFPoly (n + 1) f) (hne : f ≠ []) (hdeg : ∀ e ∈ f, deg e.1 = d) (abs : ℤ) (increase better : Bool)
    (hz : ∀ z, choosePrec p n d abs increase = .ok z → ∀ k ∈ z.N, p * ((n + k.toNat - 1) * d) < 2 ^ 63)
    (x : Option (List ℤ × CMat ℤ)) :
    zetaMain p la rnd t (frobRoutine64 p la' flint pre order) f abs increase better = .ok x ↔
    zetaMain p la rnd t (frobRoutine p la' flint pre order) f abs increase better = .ok x := by
  have key : ∀ a b : FrobRoutine p, (∀ K, 1 ≤ K → ∀ nd (g : MonMap (ZMod (p ^ K))) N, 2 ≤ n → WFPoly (n + 1) g → (∀ e ∈ g, deg e.1 = d) →
      (∀ l ≤ (n + 1) * d, (l + n).choose n < 2 ^ 63) → (∀ k ∈ N, p * ((n + k.toNat - 1) * d) < 2 ^ 63) → a K nd g N = b K nd g N) →
      zetaMain p la rnd t a f abs increase better = .ok x → zetaMain p la rnd t b f abs increase better = .ok x := by
    intro a b h hx
    rw [← zetaMain_onlyBelow la rnd t b a f hf hne hdeg abs increase better hz]
    refine zetaMain_mono la hla rnd t f hf hne hdeg abs increase better (fun K hK nd g N F h2 h3 hg hdg hs hF => ?_) x hx
    rw [onlyBelow]
    split
    · rename_i hN
      rw [← h K hK nd g N h2 hg hdg hs hN]
      exact hF
    · exact hF
  exact ⟨key _ _ (fun K hK nd g N h2 hg hdg hs hN => C90_routine hK hla' flint pre order (by omega) hg hdg hs nd N hN),
    key _ _ (fun K hK nd g N h2 hg hdg hs hN => (C90_routine hK hla' flint pre order (by omega) hg hdg hs nd N hN).symm)⟩

/-- The numbers of terms of a result are at most 40. -/
def TermsSmall (r : Res DefaultArgs) : Prop := ∀ a, r = .ok a → ∀ k ∈ a.N, k ≤ 40

theorem TermsSmall.error (x : Fail) : TermsSmall (.error x) := fun _ h => by cases h

theorem TermsSmall.ok {a : DefaultArgs} (h : ∀ k ∈ a.N, k ≤ 40) : TermsSmall (.ok a) := fun b hb => by
  cases hb
  exact h

theorem TermsSmall.ite {c : Prop} [Decidable c] {a b : Res DefaultArgs} (ha : TermsSmall a) (hb : TermsSmall b) :
    TermsSmall (if c then a else b) := by
  split
  · exact ha
  · exact hb

theorem defaultArgs_small (p n d : ℤ) : TermsSmall (defaultArgs p n d) := by
  unfold defaultArgs
  repeat' first
    | exact TermsSmall.error _
    | exact TermsSmall.ok (by decide)
    | apply TermsSmall.ite

omit hprime in
theorem defaultArgs_N {a : DefaultArgs} (h : defaultArgs p n d = .ok a) : ∀ k ∈ a.N, k ≤ 40 :=
  defaultArgs_small p n d a h

/-- **C90 for `zeta_function` with the default options.**  For every prime below `2^54` no exponent overflows. -/
theorem C90_zeta_default (la : RankDet (ZMod p)) (hla : RankDetOK la) (rnd : Rnd (ZMod p)) (t : ℕ) {la' : LinAlg (ZMod p)}
    (hla' : LinAlgOK la') (flint pre : Bool) (order : ℕ → List ℕ) (f : MonMap Int)
    (hf : WFPoly (n + 1) f) (hne : f ≠ []) (hdeg : ∀ e ∈ f, deg e.1 = d) (abs : ℤ) (habs : abs ≤ 0) (increase better : Bool)
    (hp : p < 2 ^ 54) (x : Option (List ℤ × CMat ℤ)) :
    zetaMain p la rnd t (frobRoutine64 p la' flint pre order) f abs increase better = .ok x ↔
    zetaMain p la rnd t (frobRoutine p la' flint pre order) f abs increase better = .ok x := by
  refine C90_zeta la hla rnd t hla' flint pre order f hf hne hdeg abs increase better (fun z hz k hk => ?_) x
  rw [choosePrec] at hz
  obtain ⟨a, ha, hz⟩ := Res.bind_eq_ok.1 hz
  rw [if_neg (by omega)] at hz
  cases hz
  have hmem : ((n : ℤ), (d : ℤ)) ∈ defaultPairs := by
    by_contra hn
    rw [(C12_domain p n d).2 hn] at ha
    cases ha
  have hk40 := defaultArgs_N ha k hk
  have hnd : n ≤ 3 ∧ d ≤ 9 := by
    simp only [defaultPairs, List.mem_cons, Prod.mk.injEq, List.not_mem_nil, or_false] at hmem
    omega
  have h1 : (n + k.toNat - 1) * d ≤ 42 * 9 := Nat.mul_le_mul (by omega) hnd.2
  calc p * ((n + k.toNat - 1) * d) ≤ p * (42 * 9) := Nat.mul_le_mul_left _ h1
    _ < 2 ^ 63 := by omega

end

local instance zetaI64Prime : Fact (Nat.Prime 17) := ⟨by norm_num⟩

/-- A run in 64 bits that returns: the cubic of C65. -/
example : ∃ (la : RankDet (ZMod 17)) (la' : LinAlg (ZMod 17)) (a : ℤ) (F : CMat ℤ), -8 ≤ a ∧ a ≤ 8 ∧
    zetaMain 17 la ⟨fun _ => 0, fun _ => 0⟩ 1 (frobRoutine64 17 la' true false List.range)
      [([0, 0, 3], 1), ([0, 1, 2], 1), ([0, 3, 0], 1), ([3, 0, 0], 1)] 0 false true = .ok (some ([17, -a, 1], F)) := by
  obtain ⟨la, hla⟩ := exists_rankDet (ZMod 17)
  obtain ⟨la', hla'⟩ := exists_linAlg (ZMod 17)
  obtain ⟨-, -, Φ, hΦ, a, h1, h2, h3, h4⟩ := C65_default_cubic_trace la hla ⟨fun _ => 0, fun _ => 0⟩ 1 la' hla' true false
    (order := List.range) (fun b => List.Perm.refl _) 0 le_rfl false true
  obtain ⟨f1, f2, f3⟩ := cubicInt_wf
  exact ⟨la, la', a, _, h1, h2, (C90_zeta_default (n := 2) (d := 3) la hla _ 1 hla' true false List.range _ f1 f2 f3 0 le_rfl false true
    (by norm_num) _).2 h4⟩

end Verif
