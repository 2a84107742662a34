import Verif.Model.Vec

/-!
Model of `std::map<Vec<int64_t>, V, vi64less>`, the representation of polynomials and of reverse
lookup tables in all of /repo.

A map is the list of its entries in iteration order.  The comparison is `operator<` of
vec_int64.h:28-40.  Two keys are the same entry for `std::map` when neither is smaller; on vectors
of one positive length this is equality (theorem `C01_lt_strict_total_order`), and the model tests
equality directly.  Keys of different lengths (which stop the program) are not modelled here.
-/

namespace Verif

/-- A `std::map` keyed by exponent vectors: its entries in iteration order. -/
abbrev MonMap (V : Type) := List (IVec × V)

/-- `vi64less` (vec_int64.h:20-26). -/
def keyLt (a b : IVec) : Bool :=
  match ltVec a b with
  | .ok r => r
  | .error _ => false

namespace MonMap

/-- `m.find(k)`: the value stored at `k`, if any. -/
def find? {V : Type} : MonMap V → IVec → Option V
  | [], _ => none
  | (k', v') :: m, k => if k = k' then some v' else find? m k

/-- `m[k] = v`. -/
def set {V : Type} : MonMap V → IVec → V → MonMap V
  | [], k, v => [(k, v)]
  | (k', v') :: m, k, v =>
      if k = k' then (k, v) :: m
      else if keyLt k k' then (k, v) :: (k', v') :: m
      else (k', v') :: set m k v

/-- The value of the expression `m[k]`: a missing key is inserted with the value 0. -/
def get {V : Type} [Zero V] (m : MonMap V) (k : IVec) : V := (find? m k).getD 0

/-- The map after evaluating `m[k]`. -/
def touch {V : Type} [Zero V] (m : MonMap V) (k : IVec) : MonMap V :=
  match find? m k with
  | some _ => m
  | none => set m k 0

/-- `m[k] += c`. -/
def addTo {V : Type} [Zero V] [Add V] (m : MonMap V) (k : IVec) (c : V) : MonMap V :=
  set m k (get m k + c)

/-- The keys in iteration order. -/
def keys {V : Type} (m : MonMap V) : List IVec := m.map Prod.fst

/-- Assigning a list of entries one after the other. -/
def setAll {V : Type} (m : MonMap V) (l : List (IVec × V)) : MonMap V :=
  l.foldl (fun m e => set m e.1 e.2) m

end MonMap

/-- The loops filling `tuple_dict[i]` and `coKernels_J_basis_dict` (dr/init.cc:54-57, 95-98;
dr_nd/dr_nd.cc:234-235): entry `j` of the list is stored with value `j`. -/
def buildDict (l : List IVec) : MonMap Nat :=
  MonMap.setAll [] (l.zipIdx)

end Verif
