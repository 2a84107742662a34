import Verif.Spec.Scaled

/-!
What `test_K3p3` compares.
-/

namespace Verif.Spec

open MvPolynomial

/-- Column `i` of `E` is the Frobenius column, with `N` terms of the series, of the basis element number `i`, which has pole order
`m`; its entries are residues below `3^digits`. -/
def TestedColumn (f : MvPolynomial (Fin (3 + 1)) (ZMod (3 ^ 16))) (basis : List (List ℤ)) (i m N digits : ℕ)
    (E : ℕ → ℕ → ZMod (3 ^ 16)) : Prop :=
  ∃ b, basis[i]? = some b ∧ poleOrder 3 4 b = m ∧ FrobColumn f 4 3 basis m N (ev 3 b) (fun k => E k i) ∧
    ∀ k, k < basis.length → (E k i).val < 3 ^ digits

/-- The three columns looked at by the test. -/
def TestedColumns (f : MvPolynomial (Fin (3 + 1)) (ZMod (3 ^ 16))) (basis : List (List ℤ)) (i : ℕ) (E : ℕ → ℕ → ZMod (3 ^ 16)) :
    Prop :=
  TestedColumn f basis 0 1 7 10 E ∧ TestedColumn f basis i 2 7 9 E ∧ TestedColumn f basis 20 3 8 5 E

end Verif.Spec
