import Verif.Model.SolveSystem
import Mathlib.LinearAlgebra.Matrix.Rank

/-!
Specification of `solve_system`: the contract of the linear algebra routines, and what a solution is.
-/

namespace Verif.Spec

/-- The `r × c` Mathlib matrix with the entries of `A`. -/
def toMat {R : Type} (A : CMat R) (r c : Nat) : Matrix (Fin r) (Fin c) R := fun i j => A.e i j

/-- `(T | J)`: the columns of `T` followed by the unit vectors `e_b`, `b` in `B`. -/
def augment {R : Type} [Zero R] [One R] {m n : Nat} (T : Matrix (Fin m) (Fin n) R) (B : List Nat) :
    Matrix (Fin m) (Fin (n + B.length)) R :=
  fun i j => if h : j.val < n then T i ⟨j, h⟩ else if i.val = B.getD (j.val - n) 0 then 1 else 0

/-- The echelon matrix read off `E`: row `i < r` from its pivot on. -/
def echMat {R : Type} [Zero R] (E : CMat R) (r : Nat) (c : Nat → Nat) (m n : Nat) :
    Matrix (Fin m) (Fin n) R :=
  fun i j => if i.val < r ∧ c i.val ≤ j.val then E.e i.val j.val else 0

/-- `E` holds a row echelon form of `T` of rank `r` with pivot columns `c 0 < c 1 < ...`: `T` is an
invertible matrix times the echelon matrix read off `E`.  The entries of `E` below the diagonal, in
columns `< r`, are not constrained: FLINT's LU decomposition stores the multipliers there, NTL's
`gauss` leaves zeros. -/
structure Echelon {F : Type} [Field F] (T E : CMat F) (r : Nat) (c : Nat → Nat) : Prop where
  rows : E.rows = T.rows
  cols : E.cols = T.cols
  r_le : r ≤ T.rows
  mono : ∀ i j, i < j → j < r → c i < c j
  lt : ∀ i, i < r → c i < T.cols
  pivot : ∀ i, i < r → E.e i (c i) ≠ 0
  zero : ∀ i, i < r → ∀ j, i ≤ j → j < c i → E.e i j = 0
  zero' : ∀ i, r ≤ i → i < T.rows → ∀ j, r ≤ j → j < T.cols → E.e i j = 0
  fac : ∃ W : Matrix (Fin T.rows) (Fin T.rows) F, IsUnit W.det ∧
    toMat T T.rows T.cols
      = W * echMat E r c T.rows T.cols

/-- The contract of the linear algebra routines over a field. -/
structure LinAlgOK {F : Type} [Field F] (la : LinAlg F) : Prop where
  gauss : ∀ T, ∃ c, Echelon T (la.gauss T).1 (la.gauss T).2 c
  inv : ∀ (Y : CMat F) (n : Nat), Y.rows = n → Y.cols = n → IsUnit (toMat Y n n).det →
    ∃ Z, la.inv Y = .ok Z ∧ Z.rows = n ∧ Z.cols = n ∧ toMat Y n n * toMat Z n n = 1

/-- `B`, `U` solve the system for the `m × n` matrix `T`: `B` lists rows in increasing order, `U` has
the right shape and `(T | J) U = 1`. -/
structure Solves {R : Type} [CommRing R] (T : CMat R) (B : List Nat) (U : CMat R) : Prop where
  sorted : B.Pairwise (· < ·)
  lt : ∀ b ∈ B, b < T.rows
  rows : U.rows = T.cols + B.length
  cols : U.cols = T.rows
  eq : augment (toMat T T.rows T.cols) B * toMat U (T.cols + B.length) T.rows = 1

/-- The `b`-th unit vector of length `m`. -/
def unitVec (F : Type) [Zero F] [One F] (m b : Nat) : Fin m → F := fun i => if i.val = b then 1 else 0

/-- Row `b` is a linear combination of the rows above it. -/
def DependentRow {F : Type} [Field F] (T : CMat F) (b : Nat) : Prop :=
  ∃ a : Nat → F, ∀ j, j < T.cols → T.e b j = ∑ l ∈ Finset.range b, a l * T.e l j

/-- The classes of `e_b`, `b` in `B`, form a basis of the cokernel of `T`. -/
def CokernelBasis {F : Type} [Field F] {m n : Nat} (T : Matrix (Fin m) (Fin n) F) (B : List Nat) :
    Prop :=
  LinearIndependent F (fun k : Fin B.length =>
    (LinearMap.range T.mulVecLin).mkQ (unitVec F m (B.get k))) ∧
  Submodule.span F (Set.range (fun k : Fin B.length =>
    (LinearMap.range T.mulVecLin).mkQ (unitVec F m (B.get k)))) = ⊤

end Verif.Spec
