/-!
Interleavings, for the loops that run in several threads.

An execution of a `#pragma omp parallel for` is an order of all the steps of all the iterations that keeps the
steps of each iteration in their order.  (The iterations given to one thread also keep their order; leaving that out
only allows more executions.)
-/

namespace Verif.Spec

/-- `l` is an interleaving of the lists `ts`. -/
inductive Interleave {α : Type} : List (List α) → List α → Prop
  | done {ts : List (List α)} : (∀ t ∈ ts, t = []) → Interleave ts []
  | step {ts : List (List α)} {i : Nat} {a : α} {t l : List α} :
      ts[i]? = some (a :: t) → Interleave (ts.set i t) l → Interleave ts (a :: l)

end Verif.Spec
