import Verif.Model.SolveSystem
import Verif.Model.Conv

/-!
`solve_system_padic_flint` for moduli of one machine word (solve_system/solve_system.cc:331-416), with the matrices as FLINT holds
them: rows of words.
-/

namespace Verif

/-- Entry `(i, j)` of a matrix given by its rows. -/
def aget2 (A : List (List Nat)) (i j : Nat) : Res Nat := do
  let row ← aget A i
  aget row j

/-- `nmod_mat_mul(C, A, B)` of FLINT, `A` of size `r * k`, `B` of size `k * c`; asks for reduced entries. -/
def nmodMatMul (m r k c : Nat) (A B : List (List Nat)) : Res (List (List Nat)) :=
  (List.range r).mapM (fun i => (List.range c).mapM (fun j => forRange k 0 (fun t acc => do
    let x ← aget2 A i t
    let y ← aget2 B t j
    let z ← nmodMul m x y
    nmodAdd m acc z)))

/-- `nmod_mat_scalar_mul(B, A, a)` of FLINT; asks for a reduced scalar and reduced entries. -/
def nmodMatScalar (m r c : Nat) (A : List (List Nat)) (a : Nat) : Res (List (List Nat)) :=
  (List.range r).mapM (fun i => (List.range c).mapM (fun j => do
    let x ← aget2 A i j
    nmodMul m x a))

/-- One pass of the loop: `XU = X * U; UXU = U * XU; U = 2 * U; U = U - UXU` (solve_system/solve_system.cc:401-404).  `X` is of size
`r * c`, `U` of size `c * r`. -/
def newtonWordsStep (m r c : Nat) (X U : List (List Nat)) : Res (List (List Nat)) := do
  let XU ← nmodMatMul m r c r X U
  let UXU ← nmodMatMul m c r r U XU
  let U2 ← nmodMatScalar m c r U 2
  nmodMatSub m c r U2 id (fun _ => UXU)

/-- The loop (solve_system/solve_system.cc:397-406); `precision` passes are enough. -/
def newtonWords (m r c : Nat) (X : List (List Nat)) (precision : Nat) : (fuel j : Nat) → List (List Nat) → Res (List (List Nat))
  | 0, _, U => .ok U
  | fuel + 1, j, U =>
    if j < precision then do
      let U' ← newtonWordsStep m r c X U
      newtonWords m r c X precision fuel (2 * j) U'
    else .ok U

/-- The rows of a matrix. -/
def rowsOf {R : Type} (A : CMat R) : List (List R) := List.ofFn (fun i : Fin A.rows => List.ofFn (fun j : Fin A.cols => A.e i j))

/-- `solve_system_padic_flint(B, U, T, precision)` when the modulus is one word (solve_system/solve_system.cc:331-416).  The matrices
over `F_p` inside `solve_system_zz_p_flint` are those of Model/SolveSystem. -/
def solvePadicWords {p N : Nat} (la : LinAlg (ZMod p)) (T : CMat (ZMod (p ^ N))) (precision : Nat) :
    Res (List Nat × CMat (ZMod (p ^ N))) :=
  if T.cols = 0 then .ok (List.range T.rows, CMat.one T.rows)
  else do
    let TFp ← convToNmodMat ZMod.val p (CMat.mk' T.rows T.cols (fun _ _ => 0)) T
    let (B, UFp) ← solveSystemZZp la true (TFp.map (fun w : Nat => (w : ZMod p)))
    let X0 ← (CMat.mk' T.rows (T.cols + B.length) (fun _ _ => (0 : Nat))).fill T.rows T.cols (fun i j => (T.e i j).val)
    let X ← forRange B.length X0 (fun i X => do
      let b ← aget B i
      X.store b (i + T.cols) 1)
    let U0 ← (CMat.mk' (T.cols + B.length) T.rows (fun _ _ => (0 : Nat))).fill (T.cols + B.length) T.rows
      (fun i j => (UFp.e i j).val)
    let U ← newtonWords (p ^ N) T.rows (T.cols + B.length) (rowsOf X) precision precision 1 (rowsOf U0)
    let V ← convFromNmodMat (fun w : Nat => (w : ZMod (p ^ N))) ⟨T.cols + B.length, T.rows, fun i j => ((U.getD i []).getD j 0)⟩
    pure (B, V)

end Verif
