import Verif.Spec.Smooth

/-! Specification of the constructors: which polynomials they accept. -/

namespace Verif.Spec

open MvPolynomial

/-- The reduction modulo `p` of a polynomial with coefficients modulo `q`. -/
noncomputable def reduce {n p q : Nat} (h : p ∣ q) (P : MvPolynomial (Fin (n + 1)) (ZMod q)) :
    MvPolynomial (Fin (n + 1)) (ZMod p) := MvPolynomial.map (ZMod.castHom h (ZMod p)) P

/-- The partial derivatives of `P` modulo `p` have no common zero but the origin, over any extension field of
`F_p`.  When `p` does not divide the degree, this says that the hypersurface is smooth. -/
def SmoothMod {n p q : Nat} [Fact p.Prime] (h : p ∣ q) (P : MvPolynomial (Fin (n + 1)) (ZMod q)) : Prop :=
  NoCommonZero.{0} (fun i => pderiv i (reduce h P))

/-- The same for the polynomials `x_i ∂_i P`: the hypersurface is non-degenerate. -/
def NondegMod {n p q : Nat} [Fact p.Prime] (h : p ∣ q) (P : MvPolynomial (Fin (n + 1)) (ZMod q)) : Prop :=
  NoCommonZero.{0} (fun i => X i * pderiv i (reduce h P))

end Verif.Spec
