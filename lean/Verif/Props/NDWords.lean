import Verif.Lemmas.NDWords

/-!
C85: `reduce_vector_ND_poly_flint` and `finitediff_flint_nmod` in machine words.
-/

namespace Verif

/-- **C85 (few steps).**  For a modulus of one word and at most `n + 1` steps the loop over `x`, in words and with its three buffers
exchanged after every step, returns the residues of the loop modulo `q` (C35), whatever the buffers held before. -/
theorem C85_short {q n d : Nat} (hq : 2 ≤ q) (hd : 0 < d) {M : Nat → CMat (ZMod q)} (hM : ∀ i, i < n + 2 → (M i).rows = d ∧ (M i).cols = d)
    (k : Nat) (hk : k ≤ q) {G : CVec (ZMod q)} (hG : G.len = d) {b b' : List Nat} (hb : b.length = d) (hb' : b'.length = d) :
    ∃ G' s, ndPolyLoop id n M k G = .ok G' ∧ G'.len = d ∧
      shortLoop q n d (tabW d (n + 2) M) k (vecW d G, b, b') = .ok (vecW d G', s) :=
  haveI : NeZero q := ⟨by omega⟩
  shortLoop_words hq hd hM k hk hG hb hb'

/-- **C85 (the whole function).**  For every modulus `q` of one machine word, matrices of size `d * d` and a vector with entries
in `[0, q)`, and a number of steps of at most `q`, the function in machine words - conversions, powers of `x`, products, differences
in place and inside the boxes, exchange of the buffers - returns what the model modulo `q` returns, or fails in the same way.  No
call of FLINT gets a word which is not reduced.  So the results on the finite differences (C35, C36, C49, C64) hold for the words. -/
theorem C85_reduce {q n d : Nat} (hq : 2 ≤ q) (hword : q < 2 ^ 64) (hd : 0 < d) {poly : Nat → CMat Int}
    (hsq : ∀ i, i < n + 2 → (poly i).rows = d ∧ (poly i).cols = d)
    (hred : ∀ t, t < n + 2 → ∀ i j, i < d → j < d → 0 ≤ (poly t).e i j ∧ (poly t).e i j < q) {k : Int} (hk : k ≤ q)
    {G : CVec Int} (hG : d ≤ G.len) (hGr : ∀ i, i < d → 0 ≤ G.e i ∧ G.e i < q) {junk junk' : List Nat} (hj : junk.length = d)
    (hj' : junk'.length = d) :
    reduceNDWords q n poly k G junk junk' = reduceVectorNDPolyFlint q n poly k G := by
  haveI : NeZero q := ⟨by omega⟩
  have hc0 : (poly 0).cols = d := (hsq 0 (by omega)).2
  obtain ⟨v1, v2⟩ := vecWords_ok hword (G := G) (d := d) hG hGr
  obtain ⟨F, f1, f2, f3⟩ := polyWords_ok hword (d := d) (len := n + 2) (Ms := poly)
    (fun i hi => ⟨(hsq i hi).1.ge, (hsq i hi).2.ge⟩) hred
  have hlen : (CVec.mk' d (fun i => ((G.e i : Int) : ZMod q))).len = d := rfl
  rw [reduceNDWords, reduceVectorNDPolyFlint, if_neg (by omega : ¬ 2 ^ 64 ≤ q), hc0]
  simp only
  by_cases hlong : (n : Int) + 1 < k
  · rw [if_pos hlong, if_pos hlong, v1, Res.bind_ok, f2, Res.bind_ok, finiteDiff, hc0]
    rw [decide_eq_true (show ((n + 2 : Nat) : Int) - 1 < k by push_cast; omega), check_true, Res.bind_ok, v2, Res.bind_ok, f3, Res.bind_ok,
      if_neg (by omega : ¬ (q : Int) < k)]
    rcases fdWords_eq (len := n + 2) (k := k.toNat) hd (f1 0) (by omega) (by omega) hlen hj with ⟨H', h1, h2, h3⟩ | ⟨e, h1, h2⟩
    · rw [h1, h3, Res.bind_ok, Res.bind_ok, wordsToVec_words h2]
    · rw [h1, h2]
      rfl
  · rw [if_neg hlong, if_neg hlong, v1, Res.bind_ok, f2, Res.bind_ok, v2, Res.bind_ok, f3, Res.bind_ok, if_neg (by omega : ¬ (q : Int) < k)]
    obtain ⟨G', s, g1, g2, g3⟩ := shortLoop_words hq hd (fun i _ => f1 i) k.toNat (by omega) hlen hj hj'
    rw [g1, g3, Res.bind_ok, Res.bind_ok]
    simp only
    rw [wordsToVec_words g2]

/-- Two matrices of size 2 modulo 7 and a third one that is zero: `n = 1`, the first row of the second holds the terms of degree 1. -/
def exWords : Nat → CMat Int := fun i => ⟨2, 2, fun a b => if i = 0 then (if a = b then 3 else 1) else if i = 1 then (if a = 0 then 5 else 0) else 0⟩

/-- Two steps (the loop over `x`) and 6 steps (finite differences) with buffers that hold something else at first. -/
example : (∀ i, i < 3 → (exWords i).rows = 2 ∧ (exWords i).cols = 2) ∧
    (∀ t, t < 3 → ∀ i j, i < 2 → j < 2 → 0 ≤ (exWords t).e i j ∧ (exWords t).e i j < 7) ∧
    ((reduceNDWords 7 1 exWords 2 ⟨2, fun i => (i : Int) + 1⟩ [9, 9] [8, 8]).map (fun r => (r.e 0, r.e 1))) = .ok (4, 6) ∧
    ((reduceNDWords 7 1 exWords 6 ⟨2, fun i => (i : Int) + 1⟩ [9, 9] [8, 8]).map (fun r => (r.e 0, r.e 1))) = .ok (1, 6) := by
  refine ⟨fun i _ => ⟨rfl, rfl⟩, ?_, ?_, ?_⟩
  · intro t _ i j _ _
    unfold exWords
    dsimp only
    split <;> split <;> first | omega | (split <;> omega)
  · decide +kernel
  · decide +kernel

end Verif
