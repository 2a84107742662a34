import Verif.Model.Matrix

/-!
Model of `matrix/charpoly.cc` and `matrix/charpoly_frob.cc`.

The NTL vectors local to the two functions (`e`, `p`, `s`, `mod`, ...) are functions `Nat → Int`;
the code only accesses them at indices `0..degree`, inside their lengths.  The one exception,
`p[1]` for a 0x0 matrix, is modelled as undefined behaviour.
-/

namespace Verif

/-- Assign `f[i] = x`. -/
def upd {α : Type} (f : Nat → α) (i : Nat) (x : α) : Nat → α := fun j => if j = i then x else f j

/-- NTL's matrix product `A * B` (used as `powerM *= M`, matrix/charpoly.cc:34). -/
def CMat.mul {R : Type} [Zero R] [Add R] [Mul R] (A B : CMat R) : Res (CMat R) :=
  if A.cols = B.rows then
    .ok (CMat.mk' A.rows B.cols (fun i j => sumLoop A.cols (fun k => A.e i k * B.e k j)))
  else .error .abort

/-- The traces `p[1..n]` of the powers of `M` (matrix/charpoly.cc:29-36); the state is
`(powerM, p)`. -/
def powerTraces (M : CMat Int) : Res (Nat → Int) := do
  let t ← traceM M
  let st ← forRange (M.rows - 1) (M, upd (fun _ => 0) 1 t) (fun i st => do
    let powerM ← CMat.mul st.1 M
    let t ← traceM powerM
    pure (powerM, upd st.2 (i + 2) t))
  pure st.2

/-- `sump - sumn` for index `k` (matrix/charpoly.cc:39-46). -/
def newtonSum (e p : Nat → Int) (k : Nat) : Int :=
  sumLoop ((k + 1) / 2) (fun j => e (k - (2 * j + 1)) * p (2 * j + 1))
    - sumLoop (k / 2) (fun j => e (k - (2 * j + 2)) * p (2 * j + 2))

/-- The loop over `k` (matrix/charpoly.cc:38-51); the state is `(e, result)`. -/
def newtonLoop (n : Nat) (p : Nat → Int) : Res ((Nat → Int) × (Nat → Int)) :=
  forRange n (upd (fun _ => 0) 0 1, upd (fun _ => 0) n 1) (fun k' st => do
    let k := k' + 1
    let s := newtonSum st.1 p k
    check (decide (s % (k : Int) = 0))
    let ek := s / (k : Int)
    pure (upd st.1 k ek, upd st.2 (n - k) (if k % 2 = 0 then ek else -ek)))

/-- `charpoly(M)` (matrix/charpoly.cc:14-53). -/
def charpoly (M : CMat Int) : Res (List Int) := do
  check (decide (M.rows = M.cols))
  if M.rows = 0 then .error .ub
  else do
    let p ← powerTraces M
    let st ← newtonLoop M.rows p
    pure ((List.range (M.rows + 1)).map st.2)

/-- NTL's `power_ZZ(p, e)`: a negative exponent is an error. -/
def powerZZ (p : Nat) (e : Int) : Res Int :=
  if e < 0 then .error .abort else .ok ((p : Int) ^ e.toNat)

/-- The vectors `prec`, `mod` and `cp` of `charpoly_frob`. -/
structure FrobSt where
  prec : Nat → Int
  md : Nat → Int
  cp : Nat → Int

/-- The exponent `((degree - 2*i)*dimension)/2`, used for `2*i <= degree`. -/
def symShift (degree dim i : Nat) : Nat := ((degree - 2 * i) * dim) / 2

/-- First loop: `mod[i] = p^prec[i]; cp[i] %= mod[i]` (matrix/charpoly_frob.cc:26-29). -/
def frobReduce (p degree : Nat) (st : FrobSt) : Res FrobSt :=
  forRange (degree + 1) st (fun i st => do
    let m ← powerZZ p (st.prec i)
    pure { st with md := upd st.md i m, cp := upd st.cp i (st.cp i % m) })

/-- The sign search from index `i`, with `cnt` indices left (matrix/charpoly_frob.cc:35-46). -/
def signLoop (p degree dim : Nat) (prec cp : Nat → Int) : (cnt i : Nat) → Res Int
  | 0, _ => .ok 1
  | cnt + 1, i => do
      let pp ← powerZZ p (min (prec i) (prec (degree - i) + symShift degree dim i))
      if cp i % pp ≠ 0 ∧ cp (degree - i) % pp ≠ 0 then
        if (cp i + cp (degree - i) * (p : Int) ^ symShift degree dim i) % pp = 0 then .ok (-1)
        else do
          check (decide ((cp i - cp (degree - i) * (p : Int) ^ symShift degree dim i) % pp = 0))
          pure 1
      else signLoop p degree dim prec cp cnt (i + 1)

/-- The sign (matrix/charpoly_frob.cc:19, 31-47): searched for when the dimension is even. -/
def frobSign (p degree dim : Nat) (prec cp : Nat → Int) : Res Int :=
  if dim % 2 = 0 then signLoop p degree dim prec cp (degree / 2) 1 else .ok 1

/-- One pass of the symmetry loop (matrix/charpoly_frob.cc:51-65). -/
def symStep (p degree dim : Nat) (signal : Int) (i : Nat) (st : FrobSt) : Res FrobSt :=
  let sh := symShift degree dim i
  if st.prec i ≥ st.prec (degree - i) + sh then do
    let prec := upd st.prec (degree - i) (st.prec i - sh)
    let m ← powerZZ p (prec (degree - i))
    let md := upd st.md (degree - i) m
    let q := (signal * st.cp i) / (p : Int) ^ sh
    check (decide ((signal * st.cp i) % (p : Int) ^ sh = 0))
    pure ⟨prec, md, upd st.cp (degree - i) (q % m)⟩
  else do
    let prec := upd st.prec i (st.prec (degree - i) + sh)
    let m ← powerZZ p (prec i)
    let md := upd st.md i m
    pure ⟨prec, md, upd st.cp i ((signal * st.cp (degree - i) * (p : Int) ^ sh) % m)⟩

/-- The precision assertion for index `k` (matrix/charpoly_frob.cc:72-73),
`log(k)/log(p) + prec > log(2*degree)/log(p) + 0.5*dimension*k`, in exact arithmetic for `p >= 2`:
`k * p^prec > 2*degree * p^(dimension*k/2)`, squared.  (The code evaluates it in floating point, see Model/Float and C76.) -/
def precAssert (p degree dim : Nat) (prec : Int) (k : Nat) : Bool :=
  decide (0 ≤ prec ∧ 4 * degree ^ 2 * p ^ (dim * k) < k ^ 2 * p ^ (2 * prec.toNat))

/-- The power-sum pass for index `k` (matrix/charpoly_frob.cc:79-90); the state is `(e, s, cp)`. -/
def liftStep (p degree dim : Nat) (md : Nat → Int) (k : Nat)
    (st : (Nat → Int) × (Nat → Int) × (Nat → Int)) :
    Res ((Nat → Int) × (Nat → Int) × (Nat → Int)) :=
  let e := st.1
  let s := st.2.1
  let cp := st.2.2
  let sum := sumLoop (k - 1) (fun j => (if (j + 1) % 2 = 1 then 1 else -1) * e (k - (j + 1)) * s (j + 1))
  let sk := (if k % 2 = 0 then 1 else -1) * (sum - k * e k)
  let pN := (k : Int) * md (degree - k)
  let sk := sk % pN
  let sk := if sk ^ 2 > (degree : Int) * degree * (p : Int) ^ (dim * k) then -((-sk) % pN) else sk
  let num := sum + (if k % 2 = 0 then -sk else sk)
  do
    check (decide (num % (k : Int) = 0))
    let ek := num / (k : Int)
    pure (upd e k ek, upd s k sk, upd cp (degree - k) (if k % 2 = 0 then ek else -ek))

/-- `charpoly_frob(M, prec, p, dimension)` (matrix/charpoly_frob.cc:14-93), for `p >= 2`. -/
def charpolyFrob (M : CMat Int) (prec : List Int) (p dim : Nat) : Res (List Int) := do
  let cp ← charpoly M
  let degree := cp.length - 1
  check (decide (prec.length = cp.length))
  let st ← frobReduce p degree ⟨fun i => prec.getD i 0, fun _ => 0, fun i => cp.getD i 0⟩
  let st := { st with cp := upd st.cp degree 1 }
  let signal ← frobSign p degree dim st.prec st.cp
  let st := { st with cp := upd st.cp 0 (signal * (p : Int) ^ ((degree * dim) / 2)) }
  let st ← forRange (degree / 2 + 1) st (symStep p degree dim signal)
  let e := fun k => if k % 2 = 0 then st.cp (degree - k) else -st.cp (degree - k)
  forRange degree () (fun k _ => check (precAssert p degree dim (st.prec (degree - (k + 1))) (k + 1)))
  let out ← forRange degree (e, fun _ => 0, st.cp) (fun k st' => liftStep p degree dim st.md (k + 1) st')
  pure ((List.range (degree + 1)).map out.2.2)

end Verif
