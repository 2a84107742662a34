/-!
Specification of vectors, independent of the model: lexicographic order by first difference,
componentwise relations by index.
-/

namespace Verif.Spec

/-- `a` is lexicographically smaller than `b`: at the first position where they differ, `a` is
smaller. -/
def LexLt (a b : List Int) : Prop :=
  ∃ k, ∃ ha : k < a.length, ∃ hb : k < b.length,
    (∀ i, ∀ hi : i < k, a[i] = b[i]) ∧ a[k] < b[k]

/-- Componentwise `≤` between vectors of one length. -/
def LE (a b : List Int) : Prop :=
  a.length = b.length ∧ ∀ i (ha : i < a.length) (hb : i < b.length), a[i] ≤ b[i]

/-- All entries are non-negative. -/
def NonNeg (a : List Int) : Prop := ∀ x ∈ a, 0 ≤ x

/-- Total degree of an exponent vector. -/
def deg (a : List Int) : Int := a.sum

/-- `w` is `u` with some lowest entries emptied, one entry lowered, the rest untouched. -/
def LowestFirst (w u : List Int) : Prop :=
  ∃ j, (∀ i (_ : i < w.length), i < j → w[i] = 0) ∧
    (∀ i (_ : i < w.length) (_ : i < u.length), j < i → w[i] = u[i])

end Verif.Spec
