import Verif.Model.DrawPaths
import Verif.Model.SelfTest
import Verif.Model.Programs

/-!
Models of the test programs: `dr/test`, `dr_nd/test`, `hypersurface/test/test_invariance_J.cc`, `hypersurface_nd/test` and
`wrapper/test`.

`none` stands for a random search which is still running after `t` passes.  What is printed is left out but for PASS (the program
returns) and FAIL (the program stops).
-/

namespace Verif

/-! ### The tests of the reductions: dr/test/test_paths_J.cc, dr/test/test_monomial_to_basis_J.cc,
dr_nd/test/test_paths_ND.cc, dr_nd/test/test_monomial_to_basis_ND.cc -/

/-- A loop with one test in every pass: FAIL stops the program. -/
def testLoop (test : Nat → Res (Option Bool)) : Nat → Nat → Res (Option Unit)
  | 0, _ => .ok (some ())
  | c + 1, i => do
      match ← test i with
      | none => .ok none
      | some false => .error .abort
      | some true => testLoop test c (i + 1)

/-- A loop whose passes are loops. -/
def outerLoop (body : Nat → Res (Option Unit)) : Nat → Nat → Res (Option Unit)
  | 0, _ => .ok (some ())
  | c + 1, i => do
      match ← body i with
      | none => .ok none
      | some () => outerLoop body c (i + 1)

/-- The loops of the four `main` functions (dr/test/test_paths_J.cc:19-44 and the like): ten primes, `n = 2, 3` and
`d = n + 1, ..., bound`. -/
def tenRounds (bound : Nat → Nat → Nat) (test : Nat → Nat → Nat → Res (Option Bool)) : Res (Option Unit) :=
  outerLoop (fun i => outerLoop (fun n => testLoop (fun d => test i n d) (bound i n - n) (n + 1)) 2 2) 10 0

/-- `degree_bound` (dr/test/test_paths_J.cc:25-30). -/
def degreeBound (_ n : Nat) : Nat := if n = 3 then 4 else 5

/-- `degree_bound` of dr_nd/test/test_monomial_to_basis_ND.cc:24-33, where three of four surfaces are skipped. -/
def degreeBoundSkip (i n : Nat) : Nat := if n = 3 then (if i % 4 = 0 then 4 else 0) else 5

section

variable {p : Nat} [Fact p.Prime] (la : LinAlg (ZMod p)) (flint : Bool) (zz : Nat → ZMod p) (rnd : Nat → Nat) (t n d : Nat)

/-- `D = de_Rham_local(p, 4, n, d, false); D.test_paths_J(N, N)` (dr/test/test_paths_J.cc:24-37). -/
def pathsTestJ : Res (Option Bool) := do
  let N := if n = 3 then 3 else 5
  match ← DR.random (q := p ^ 4) (fun T => solveSystemPadic la flint T 4) (fun T => solveSystemPadic la flint T 1) zz t n d with
  | none => .ok none
  | some D => testPathsRndJ rnd (fun T => solveSystemPadic la flint T 4) D t N N

/-- The same with `de_Rham_non_degenerate_local` (dr_nd/test/test_paths_ND.cc:24-37). -/
def pathsTestND : Res (Option Bool) := do
  let N := if n = 3 then 3 else 5
  match ← ND.random (q := p ^ 4) (fun T => solveSystemPadic la flint T 4) (fun T => solveSystemPadic la flint T 1) zz t n d with
  | none => .ok none
  | some D => testPathsRndND rnd (fun T => solveSystemPadic la flint T 4) D t N N

/-- `D.test_monomial_to_basis_J(N)` for a random `D` (dr/test/test_monomial_to_basis_J.cc:23-36). -/
def basisTestJ : Res (Option Bool) := do
  let N := if n = 3 then 1 else 3
  match ← DR.random (q := p ^ 4) (fun T => solveSystemPadic la flint T 4) (fun T => solveSystemPadic la flint T 1) zz t n d with
  | none => .ok none
  | some D => do
      let b ← selfTestJ (fun T => solveSystemPadic la flint T 4) D N
      .ok (some b)

/-- `D.test_monomial_to_basis_ND(N)` for a random `D` (dr_nd/test/test_monomial_to_basis_ND.cc:23-40). -/
def basisTestND : Res (Option Bool) := do
  let N := if n = 3 then 1 else 3
  match ← ND.random (q := p ^ 4) (fun T => solveSystemPadic la flint T 4) (fun T => solveSystemPadic la flint T 1) zz t n d with
  | none => .ok none
  | some D => do
      let b ← selfTestND (fun T => solveSystemPadic la flint T 4) D N
      .ok (some b)

end

/-! ### hypersurface/test/test_invariance_J.cc, hypersurface_nd/test/test_invariance_ND.cc -/

/-- The comparison (hypersurface/test/test_invariance_J.cc:25-39; hypersurface_nd/test/test_invariance_ND.cc:25-43): `hs` is the first
object with its state `s`, `second` the construction of `hs2`.  Both matrices are computed from `hs`. -/
def invarianceTest {Obj S M : Type} (frob : Obj → S → Res (M × S)) (cpf : M → Res (List Int)) (hs : Obj) (s : S)
    (second : Res (Option Obj)) : Res (Option Bool) := do
  let r ← frob hs s
  let cp ← cpf r.1
  match ← second with
  | none => .ok none
  | some _hs2 => do
      let r2 ← frob hs r.2
      let cp2 ← cpf r2.1
      .ok (some (decide (cp2 = cp)))

section

variable {p : Nat} [Fact p.Prime] (la : LinAlg (ZMod p)) (rd : RankDet (ZMod p)) (flint pre : Bool) (order : Nat → List Nat)
  (zz : Nat → ZMod p) (rnd rnd' : Rnd (ZMod p)) (t n d : Nat)

/-- `test_invariance_J(p, n, d)` (hypersurface/test/test_invariance_J.cc:13-54).  `zz` are the numbers drawn by the
constructor, `rnd` those drawn by `random_SL_matrix`. -/
def invarianceJ : Res (Option Bool) := do
  let a ← defaultArgs p n d
  let K := a.precision.toNat
  let solve : Solver (ZMod (p ^ K)) := fun T => solveSystemPadic la flint T K
  match ← DR.random solve (fun T => solveSystemPadic la flint T 1) zz t n d with
  | none => .ok none
  | some D =>
      invarianceTest (fun D T => frobMatrixJ solve D p pre (order D.basis.length) T a.N)
        (fun F => charpolyFrob (repMat (trimMat F)) a.charpolyPrec p (n - 1)) D (fpowStart D.n) (do
          match ← randomSL rd rnd (n + 1) t ⟨0, 0⟩ with
          | none => .ok none
          | some (M, _) => do
              let g ← changeOfVariables (reduceMap (p := p) D.f) M
              let D2 ← DR.ofBar (p := p) solve g
              .ok (some D2))

/-- `test_invariance_ND(p, n, d)` (hypersurface_nd/test/test_invariance_ND.cc:13-59); `rnd'` are the numbers drawn by
`find_change_of_variables`. -/
def invarianceND : Res (Option Bool) := do
  let a ← defaultArgs p n d
  let K := a.precision.toNat
  let solve : Solver (ZMod (p ^ K)) := fun T => solveSystemPadic la flint T K
  match ← ND.random solve (fun T => solveSystemPadic la flint T 1) zz t n d with
  | none => .ok none
  | some D =>
      invarianceTest (fun D T => frobMatrixND solve D p pre (order D.basis.length) T a.N)
        (fun F => charpolyFrob (repMat (trimMat F)) a.charpolyPrec p (n - 1)) D (fpowStart D.n) (do
          match ← randomSL rd rnd (n + 1) t ⟨0, 0⟩ with
          | none => .ok none
          | some (M, _) => do
              let f1 ← changeOfVariables (reduceMap (p := p) D.f) M
              match ← findChangeOfVariables rd (p ^ K) rnd' t f1 1000 with
              | none => .ok none
              | some (M', _) => do
                  let g ← changeOfVariables f1 M'
                  let D2 ← ND.ofBar (p := p) solve g
                  .ok (some D2))

end

/-! ### hypersurface_nd/test/test_JND_and_invariance.cc -/

/-- `c[i] = c[i] % m(i)` for `i < len`. -/
def remLoop (m : Nat → Int) (len : Nat) (c : List Int) : Res (List Int) :=
  forRange len c (fun i c => do
    let x ← aget c i
    aset c i (x % m i))

/-- The part of `test_JND_and_invariance(p, 2)` after the matrices are known
(hypersurface_nd/test/test_JND_and_invariance.cc:53-153): `FJ` and `FND` are the matrices of the first object, `Fnew` is the
computation of the matrix of the second one.  When `FJ` and `FND` differ, only a message is printed. -/
def jndCompare {q : Nat} (p : Nat) (FJ FND : CMat (ZMod q)) (Fnew : Res (Option (CMat (ZMod q)))) : Res (Option Bool) := do
  let _cp ← charpoly (repMat FJ)
  match ← Fnew with
  | none => .ok none
  | some Fn => do
      if Fn.rows < FND.rows ∨ Fn.cols < FND.cols then .error .ub
      let p2 : Int := (p : Int) ^ 2
      let c1 ← charpoly ⟨FND.rows, FND.cols, fun i j => ((FND.e i j).val : Int) % p2⟩
      let c2 ← charpoly ⟨FND.rows, FND.cols, fun i j => ((Fn.e i j).val : Int) % p2⟩
      let m : Nat → Int := fun i => if i < 3 then (p : Int) ^ (4 - i) else p2
      let c1 ← remLoop m 7 c1
      let c2 ← remLoop m 7 c2
      .ok (some (decide (c1 = c2)))

section

variable {p : Nat} [Fact p.Prime] (la : LinAlg (ZMod p)) (rd : RankDet (ZMod p)) (flint pre : Bool) (order : Nat → List Nat)
  (zz : Nat → ZMod p) (rnd rnd' : Rnd (ZMod p)) (t : Nat)

/-- `test_JND_and_invariance(p, 2)` (hypersurface_nd/test/test_JND_and_invariance.cc:12-157), the only case that `main` runs:
plane quartics with precision 3 and `N = [2 2]`. -/
def jndTest : Res (Option Bool) := do
  let N : List Int := [2, 2]
  let solve : Solver (ZMod (p ^ 3)) := fun T => solveSystemPadic la flint T 3
  match ← ND.random solve (fun T => solveSystemPadic la flint T 1) zz t 2 4 with
  | none => .ok none
  | some D => do
      let rJ ← frobMatrixJ solve D.toDR p pre (order D.basis.length) (fpowStart D.n) N
      let rND ← frobMatrixND solve D p pre (order D.basis.length) rJ.2 N
      jndCompare p (trimMat rJ.1) (trimMat rND.1) (do
        match ← randomSL rd rnd 3 t ⟨0, 0⟩ with
        | none => .ok none
        | some (M, _) => do
            let f1 ← changeOfVariables (reduceMap (p := p) D.f) M
            match ← findChangeOfVariables rd (p ^ 3) rnd' t f1 1000 with
            | none => .ok none
            | some (M', _) => do
                let g ← changeOfVariables f1 M'
                let D2 ← ND.ofBar (p := p) solve g
                let r2 ← frobMatrixND solve D2 p pre (order D2.basis.length) (fpowStart D2.n) N
                .ok (some (trimMat r2.1)))

end

/-! ### wrapper/test/test_zeta_function.cc -/

/-- `ZZX` from its coefficients: zeros at the end are dropped. -/
def normZZX (c : List Int) : List Int := (c.reverse.dropWhile (fun x => decide (x = 0))).reverse

/-- The end of the three tests (wrapper/test/test_zeta_function.cc:35-45, 55-66, 77-88): `text` is written to the buffer, then the
polynomial `expected`, which is 0, is written as well instead of being read; FAIL is reported when the polynomials are equal.
Returns the exit code. -/
def zetaTest (text : Str) (out : List Int) : Nat :=
  let expected : List Int := []
  let _buffer := text ++ showVec showInt expected
  if normZZX out = expected then 1 else 0

/-- `input` of `test_genus3` (wrapper/test/test_zeta_function.cc:49). -/
def genus3Input : String :=
  "17\n[[1 2 1] [2 0 2] [3 1 0] [1 3 0] [2 2 0] [0 2 2] [1 1 2] [3 0 1] [0 0 4] [2 1 1] [1 0 3] [0 4 0]]\n[-3 1 1 -4 1 3 -3 1 2 3 -4 2]"

/-- `input` of `test_K3` (wrapper/test/test_zeta_function.cc:71). -/
def k3Input : String :=
  "23\n[[4 0 0 0] [1  3  0  0]  [0  0  1  3]  [3  1  0  0]  [0  0  3  1]]\n[1 1  1  1  1]"

/-- The expected polynomial of `test_genus3`, `test_dwork`, `test_K3` (wrapper/test/test_zeta_function.cc:56, 36, 78). -/
def genus3Text : String := "[4913 -4046 1887 -548 111 -14 1]"

def dworkText : String := "[-7400249944258160101211 3608386336456458231169 -277995865674611574050 -136470697694809318170 25042602775646827745 1533050078175543917 -641017719088510808 9666359400300680 8818983738586010 -482176723332590 -74181034358860 6743730396260 362266508890 -54758950510 -496037080 271854088 -5373247 -725395 32670 550 -59 1]"

def k3Text : String := "[-39471584120695485887249589623 1716155831334586342923895201 694248294717583133054278966 -30184708465981875350186042 -5562277647022665774607627 241838158566202859765549 26802637582333589558408 -1165332068797112589496 -86212132515567942814 3748353587633388818 193710366435022724 -8422189845000988 -308075416095454 13394583308498 342258975368 -14880825016 -253815787 11035469 113206 -4922 -23 1]"

/-- The monomials of `test_dwork` (wrapper/test/test_zeta_function.cc:15-26); all coefficients are 1. -/
def dworkMonomials : List IVec :=
  (List.range 4).map (fun i => (List.replicate 4 (0 : Int)).set i 4) ++ [[1, 1, 1, 1]]

/-- `zeta_function` for `p` given at run time, with `abs_precision`, `increase_precision_to_deduce_zeta`, `find_better_model` at their default
values (wrapper.h:24-26); not modelled when `p` is not a prime. -/
def zetaOf (la : (p : Nat) → RankDet (ZMod p)) (rnd : (p : Nat) → Rnd (ZMod p)) (t : Nat)
    (frob : (p : Nat) → [Fact p.Prime] → FrobRoutine p) (f : MonMap Int) (p : Int) : Res (Option (List Int × CMat Int)) :=
  if h : p.toNat.Prime then
    haveI : Fact p.toNat.Prime := ⟨h⟩
    zetaMain p.toNat (la p.toNat) (rnd p.toNat) t (frob p.toNat) f 0 true true
  else .error .ub

/-- `main` (wrapper/test/test_zeta_function.cc:91-100); `zeta` is `zeta_function` with the options `verbose = false`,
`threads = 1` and the other ones at their default values: the polynomial and `p` to the coefficients of the result. -/
def zetaTestMain (zeta : MonMap Int → Int → Res (Option (List Int × CMat Int))) : Res (Option Nat) := do
  match ← zetaStr zeta genus3Input.toList with
  | none => .ok none
  | some g3 => do
      match ← zetaVec zeta dworkMonomials [1, 1, 1, 1, 1] 23 with
      | none => .ok none
      | some dw => do
          match ← zetaStr zeta k3Input.toList with
          | none => .ok none
          | some k3 =>
              let total := zetaTest genus3Text.toList g3.1 + zetaTest dworkText.toList dw.1 + zetaTest k3Text.toList k3.1
              .ok (some (if total > 0 then 1 else 0))

end Verif
