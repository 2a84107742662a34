import Verif.Lemmas.Programs
import Verif.Lemmas.DefaultArgs

/-!
Property C68, first part: what `examples/frob.cc` reads and writes.
-/

namespace Verif

open Spec

/-- The seven lines of an input file, without the newline that ends the last one. -/
def Spec.sevenLines (x : FrobInput) : Str :=
  showInt x.p ++ '\n' :: (showInt x.precision ++ '\n' :: (showInt x.n ++ '\n' :: (showInt x.d ++ '\n' ::
  (showVec showInt x.f ++ '\n' :: (showVec showInt x.N ++ '\n' :: showVec showInt x.absPrec)))))

/-- **C68 (general input).**  A file with the seven lines described in the help text, each ended by a newline, is read
as what it says, whatever follows it. -/
theorem C68_read (x : FrobInput) (hp : 2 ≤ x.p) (hK : 1 ≤ x.precision) (rest : Str) :
    readFrobInput (sevenLines x ++ '\n' :: rest) = .ok x := by
  have hw : isWs '\n' = true := by decide
  have hcount : ¬ (sevenLines x ++ '\n' :: rest).count '\n' < 7 := by
    simp only [sevenLines, List.append_assoc, List.cons_append, count_line]
    omega
  rw [readFrobInput]
  simp only [if_neg hcount]
  simp only [sevenLines, List.append_assoc, List.cons_append]
  rw [readInt_ws_end _ _ hw, Res.bind_ok]
  simp only
  rw [readInt_ws _ _ hw, readInt_ws_end _ _ hw, Res.bind_ok]
  simp only
  rw [readInt_ws _ _ hw, readInt_ws_end _ _ hw, Res.bind_ok]
  simp only
  rw [readInt_ws _ _ hw, readInt_ws_end _ _ hw, Res.bind_ok]
  simp only
  rw [initModuli_ok hp hK, Res.bind_ok, readVec_ws _ _ hw, readVec_end, Res.bind_ok]
  simp only
  rw [readVec_ws _ _ hw, readVec_end, Res.bind_ok]
  simp only
  rw [readVec_ws _ _ hw, readVec_end, Res.bind_ok]

/-- **C68 (no modulus).**  When `p` is less than 2 or the precision less than 1 there is no modulus `p` or `p^precision`, and the
program stops before the polynomial is read, whatever the rest of the file says. -/
theorem C68_modulus (x : FrobInput) (h : x.p < 2 ∨ x.precision < 1) (rest : Str) :
    readFrobInput (sevenLines x ++ '\n' :: rest) = .error .abort := by
  have hw : isWs '\n' = true := by decide
  have hcount : ¬ (sevenLines x ++ '\n' :: rest).count '\n' < 7 := by
    simp only [sevenLines, List.append_assoc, List.cons_append, count_line]
    omega
  have hm : initModuli x.p x.precision = .error .abort := by
    rw [initModuli]
    by_cases hp : x.p < 2
    · rw [if_pos hp]
    rw [if_neg hp, powerZZ]
    by_cases hn : x.precision < 0
    · rw [if_pos hn]; rfl
    have h0 : x.precision = 0 := by omega
    rw [if_neg hn, h0]
    rfl
  rw [readFrobInput]
  simp only [if_neg hcount]
  simp only [sevenLines, List.append_assoc, List.cons_append]
  rw [readInt_ws_end _ _ hw, Res.bind_ok]
  simp only
  rw [readInt_ws _ _ hw, readInt_ws_end _ _ hw, Res.bind_ok]
  simp only
  rw [readInt_ws _ _ hw, readInt_ws_end _ _ hw, Res.bind_ok]
  simp only
  rw [readInt_ws _ _ hw, readInt_ws_end _ _ hw, Res.bind_ok]
  simp only
  rw [hm]
  rfl

/-- The prime 1, and the precisions 0 and -1. -/
example : readFrobInput ("1\n3\n1\n2\n[1 0 1]\n[2]\n[1 1]\n".toList) = .error .abort ∧
    readFrobInput ("7\n0\n1\n2\n[1 0 1]\n[2]\n[1 1]\n".toList) = .error .abort ∧
    readFrobInput ("7\n-1\n1\n2\n[1 0 1]\n[2]\n[1 1]\n".toList) = .error .abort := by
  refine ⟨?_, ?_, ?_⟩ <;> decide +kernel

/-- The precision and the two vectors of the table. -/
theorem k3Buffer_ok {p : ℕ} (hp : p.Prime) :
    (p = 2 → k3Buffer p = .error .assertFail) ∧
    (p ≠ 2 → ∃ (a : DefaultArgs), defaultArgs p 3 4 = .ok a ∧ 1 ≤ a.precision ∧
      k3Buffer p = .ok (a.precision, showVec showInt a.N ++ '\n' :: showVec showInt a.charpolyPrec)) := by
  refine ⟨?_, fun h2 => ?_⟩
  · rintro rfl; rfl
  have hn : ∀ k : ℕ, ¬ k.Prime → p ≠ k := fun k hk h => hk (h ▸ hp)
  have h4 := hn 4 (by norm_num)
  have h6 := hn 6 (by norm_num)
  have h20 := hn 20 (by norm_num)
  have h21 := hn 21 (by norm_num)
  have h22 := hn 22 (by norm_num)
  have h42 := hn 42 (by norm_num)
  have hge := hp.two_le
  rw [da_3_4, k3Buffer]
  by_cases c3 : p = 3
  · subst c3
    exact ⟨_, rfl, by decide, by decide +kernel⟩
  rw [if_neg (show ¬ ((p : ℤ) = 3) by omega)]
  by_cases c5 : p = 5
  · subst c5
    exact ⟨_, rfl, by decide, by decide +kernel⟩
  rw [if_neg (show ¬ ((p : ℤ) = 5) by omega), if_neg (show ¬ ((p : ℤ) < 5) by omega),
    if_neg (show ¬ (5 ≤ (p : ℤ) ∧ (p : ℤ) < 7) by omega)]
  by_cases c20 : p < 20
  · rw [if_pos (show 6 < (p : ℤ) ∧ (p : ℤ) < 20 by omega), if_pos (show 7 ≤ (p : ℤ) ∧ (p : ℤ) < 23 by omega)]
    exact ⟨_, rfl, by decide, by decide +kernel⟩
  rw [if_neg (show ¬ (6 < (p : ℤ) ∧ (p : ℤ) < 20) by omega), if_neg (show ¬ (7 ≤ (p : ℤ) ∧ (p : ℤ) < 23) by omega)]
  by_cases c42 : p < 42
  · rw [if_pos (show 20 < (p : ℤ) ∧ (p : ℤ) < 42 by omega), if_pos (show 23 ≤ (p : ℤ) ∧ (p : ℤ) < 43 by omega)]
    exact ⟨_, rfl, by decide, by decide +kernel⟩
  rw [if_neg (show ¬ (20 < (p : ℤ) ∧ (p : ℤ) < 42) by omega), if_neg (show ¬ (23 ≤ (p : ℤ) ∧ (p : ℤ) < 43) by omega),
    if_pos (show 43 ≤ (p : ℤ) by omega), decide_eq_true (show (p : ℤ) > 42 by omega), check_true, Res.bind_ok]
  exact ⟨_, rfl, by decide, by decide +kernel⟩

/-- **C68 (quartic surfaces).**  A file with a prime and a vector, and with fewer than seven newlines, is read as a quartic surface
with the precisions that `default_args` gives for `n = 3`, `d = 4`; for `p = 2` the assertion fails. -/
theorem C68_read_K3 {p : ℕ} (hp : p.Prime) (f : List ℤ) (c : Char) (hc : isWs c = true) (rest : Str)
    (hcount : (showInt p ++ c :: (showVec showInt f ++ rest)).count '\n' < 7) :
    (p = 2 → readFrobInput (showInt p ++ c :: (showVec showInt f ++ rest)) = .error .assertFail) ∧
    (p ≠ 2 → ∃ a, defaultArgs p 3 4 = .ok a ∧
      readFrobInput (showInt p ++ c :: (showVec showInt f ++ rest)) =
        .ok ⟨p, a.precision, 3, 4, f, a.N, a.charpolyPrec⟩) := by
  obtain ⟨h1, h2⟩ := k3Buffer_ok hp
  rw [readFrobInput]
  simp only [if_pos hcount]
  rw [readInt_ws_end _ _ hc, Res.bind_ok]
  simp only
  refine ⟨fun h => by rw [h1 h]; rfl, fun h => ?_⟩
  obtain ⟨a, e1, e2, e3⟩ := h2 h
  refine ⟨a, e1, ?_⟩
  rw [e3, Res.bind_ok]
  simp only
  rw [initModuli_ok (by have := hp.two_le; omega) e2, Res.bind_ok, readVec_ws _ _ hc, readVec_end, Res.bind_ok]
  simp only
  rw [readVec_end, Res.bind_ok]
  simp only
  have := readVec_end a.charpolyPrec []
  rw [List.append_nil] at this
  rw [readVec_ws _ _ (by decide), this, Res.bind_ok]

/-- Two lines, with or without a newline at the end. -/
example (f : List ℤ) : (∃ a, defaultArgs 7 3 4 = .ok a ∧
      readFrobInput (showInt 7 ++ '\n' :: (showVec showInt f ++ ['\n'])) = .ok ⟨7, a.precision, 3, 4, f, a.N, a.charpolyPrec⟩) ∧
    ∃ a, defaultArgs 7 3 4 = .ok a ∧
      readFrobInput (showInt 7 ++ '\n' :: (showVec showInt f ++ [])) = .ok ⟨7, a.precision, 3, 4, f, a.N, a.charpolyPrec⟩ := by
  have h0 : (showVec showInt f).count '\n' = 0 := List.count_eq_zero_of_not_mem (newline_showVec newline_showInt f)
  have h1 : (showInt 7).count '\n' = 0 := List.count_eq_zero_of_not_mem (newline_showInt 7)
  have hp : Nat.Prime 7 := by norm_num
  constructor
  · exact (C68_read_K3 hp f '\n' (by decide) ['\n'] (by
      rw [count_line, List.count_append, h0]; show (showInt 7).count '\n' + _ + 1 < 7; rw [h1]; decide)).2 (by norm_num)
  · exact (C68_read_K3 hp f '\n' (by decide) [] (by
      rw [count_line, List.count_append, h0]; show (showInt 7).count '\n' + _ + 1 < 7; rw [h1]; decide)).2 (by norm_num)

/-- **C68 (last newline missing; the code is wrong).**  The same seven lines, when the last one is not ended by a newline,
are never read: with six newlines the file is taken for that of a quartic surface, and the number in the second line for its
vector of coefficients. -/
theorem C68_unterminated_wrong (x : FrobInput) : ∃ e, readFrobInput (sevenLines x) = .error e := by
  have hw : isWs '\n' = true := by decide
  have hcount : (sevenLines x).count '\n' < 7 := by
    have h0 : ∀ x : ℤ, (showInt x).count '\n' = 0 := fun x => List.count_eq_zero_of_not_mem (newline_showInt x)
    have h1 : ∀ l : List ℤ, (showVec showInt l).count '\n' = 0 :=
      fun l => List.count_eq_zero_of_not_mem (newline_showVec newline_showInt l)
    simp only [sevenLines, count_line, h0, h1]
    norm_num
  rw [readFrobInput]
  simp only [if_pos hcount]
  simp only [sevenLines]
  rw [readInt_ws_end _ _ hw, Res.bind_ok]
  simp only
  cases k3Buffer x.p with
  | error e => exact ⟨e, rfl⟩
  | ok b =>
    rw [Res.bind_ok]
    cases initModuli x.p b.1 with
    | error e => exact ⟨e, rfl⟩
    | ok u => exact ⟨.abort, by rw [Res.bind_ok, readVec_ws _ _ hw, readVec_number]; rfl⟩

/-- The file examples/frob_curve.input with and without its last newline. -/
example : readFrobInput ("17\n3\n2\n4\n[1 6 -2 75 1 0 -2 -1 1 5 0 -1 0 -3 15]\n[2 2]\n[4 3 2 2 2 2 2]\n".toList) =
      .ok ⟨17, 3, 2, 4, [1, 6, -2, 75, 1, 0, -2, -1, 1, 5, 0, -1, 0, -3, 15], [2, 2], [4, 3, 2, 2, 2, 2, 2]⟩ ∧
    readFrobInput ("17\n3\n2\n4\n[1 6 -2 75 1 0 -2 -1 1 5 0 -1 0 -3 15]\n[2 2]\n[4 3 2 2 2 2 2]".toList) = .error .abort := by
  constructor <;> decide +kernel

/-- **C68 (output).**  The file written is, up to its seventh line, an input file for the same problem: reading it gives back
everything that was read, with the coefficients of the polynomial replaced by their representatives modulo `p`. -/
theorem C68_output {p q : ℕ} [NeZero p] (x : FrobInput) (hx : x.p = p) (hp : 2 ≤ p) (hK : 1 ≤ x.precision) (y : FrobOutput p q)
    (wall user : Str) :
    readFrobInput (frobText x y wall user) = .ok { x with f := x.f.map (fun c : Int => c % p) } := by
  have hf : (x.f.map (fun c : ℤ => (c : ZMod p))).map (fun c : ZMod p => (c.val : ℤ)) = x.f.map (fun c : ℤ => c % p) := by
    rw [List.map_map]
    refine List.map_congr_left (fun c _ => ?_)
    exact ZMod.val_intCast c
  have := C68_read { x with f := x.f.map (fun c : Int => c % p) } (by show 2 ≤ x.p; omega) hK
    (showMat showMod (matRows y.M) ++ '\n' :: (showVec showMod y.f ++ '\n' ::
      (showMat showMod (matRows y.Frob) ++ '\n' :: (showVec showInt y.cp ++ '\n' :: (showInt y.rank ++ '\n' ::
      (wall ++ '\n' :: (user ++ ['\n'])))))))
  rw [← this]
  congr 1
  simp only [frobText, sevenLines, List.append_assoc, List.cons_append, showVec_mod, hf]

/-- Everything written can be read back: `M`, the polynomial of the model, the matrix, the characteristic polynomial and the
rank follow the seven lines of the input. -/
theorem C68_output_rest {p q : ℕ} [NeZero p] [NeZero q] (x : FrobInput) (y : FrobOutput p q) (wall user : Str) :
    ∃ s, frobText x y wall user = sevenLines { x with f := (x.f.map (fun c : Int => ((c : ZMod p).val : ℤ))) } ++ s ∧
      (readVec (readVec (readMod p)) s >>= fun M => readVec (readMod p) M.2 >>= fun f =>
        readVec (readVec (readMod q)) f.2 >>= fun F => readVec readInt F.2 >>= fun cp => readInt cp.2 >>= fun r =>
        (.ok (M.1, f.1, F.1, cp.1, r.1) : Res _)) =
      .ok (matRows y.M, y.f, matRows y.Frob, y.cp, y.rank) := by
  have hw : isWs '\n' = true := by decide
  refine ⟨'\n' :: (showMat showMod (matRows y.M) ++ '\n' :: (showVec showMod y.f ++ '\n' ::
      (showMat showMod (matRows y.Frob) ++ '\n' :: (showVec showInt y.cp ++ '\n' :: (showInt y.rank ++ '\n' ::
      (wall ++ '\n' :: (user ++ ['\n']))))))), ?_, ?_⟩
  · simp only [frobText, sevenLines, List.append_assoc, List.cons_append, showVec_mod, List.map_map]
    rfl
  · rw [readVec_ws _ _ hw, rt_modMat, Res.bind_ok]
    simp only
    rw [readVec_ws _ _ hw, (rt_modVec y.f).read _ trivial, Res.bind_ok]
    simp only
    rw [readVec_ws _ _ hw, rt_modMat, Res.bind_ok]
    simp only
    rw [readVec_ws _ _ hw, readVec_end, Res.bind_ok]
    simp only
    rw [readInt_ws _ _ hw, readInt_ws_end _ _ hw, Res.bind_ok]

/-- A coefficient outside `0 .. p-1` comes back reduced. -/
example (q : ℕ) (y : FrobOutput 7 q) :
    readFrobInput (frobText ⟨7, 2, 1, 3, [1, -1, 9, 3], [1], [1, 1, 1]⟩ y [] []) =
      .ok ⟨7, 2, 1, 3, [1, 6, 2, 3], [1], [1, 1, 1]⟩ :=
  C68_output (p := 7) ⟨7, 2, 1, 3, [1, -1, 9, 3], [1], [1, 1, 1]⟩ rfl (by norm_num) (by norm_num) y [] []

end Verif
