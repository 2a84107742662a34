import Verif.Spec.Pipeline

/-!
The digits left by the exact division at the end of the Frobenius functions.
-/

namespace Verif.Spec

/-- The number of digits taken away from a column of pole order `m` with `N` terms: `max(0, v - (n-1))`, where `p^v` is the power
of `p` in `(p(m+N-1)-1)!`. -/
def digitsLost (p n m N : ℕ) : ℕ := padicValNat p (frobFact p m N) - (n - 1)

/-- Every column of `Φ` is written with the digits left. -/
def InDigits {p K : ℕ} (n d : ℕ) (basis : List (List ℤ)) (N : List ℤ) (Φ : ℕ → ℕ → ZMod (p ^ K)) : Prop :=
  ∀ (i : ℕ) (b : List ℤ) (Ni : ℤ), basis[i]? = some b → N[poleOrder n d b - 1]? = some Ni → 0 < Ni →
    ∀ k, k < basis.length → (Φ k i).val < p ^ (K - digitsLost p n (poleOrder n d b) Ni.toNat)

end Verif.Spec
