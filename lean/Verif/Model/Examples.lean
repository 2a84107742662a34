import Verif.Model.Programs
import Verif.Model.TestPrograms

/-!
The inputs given to the programs in /repo/examples: three input files of `examples/frob.cc` and two programs that call `zeta_function`
with a text.
-/

namespace Verif

/-- examples/example_quartic_curve.input. -/
def curveFile : String := "17\n3\n2\n4\n[1 6 -2 75 1 0 -2 -1 1 5 0 -1 0 -3 15]\n[2 2]\n[4 3 2 2 2 2 2]\n"

/-- examples/example_quartic_curve_modp.input. -/
def modpFile : String := "17\n1\n2\n4\n[1 6 -2 75 1 0 -2 -1 1 5 0 -1 0 -3 15]\n[0 1]\n[4 3 2 2 2 2 2]\n"

/-- examples/example_quartic_surface.input. -/
def surfaceFile : String :=
  "5\n9\n3\n4\n[0 -1 0 1 0 0 0 0 0 0 0 0 0 0 0 0 0 0 0 0 0 0 0 0 -1 0 0 0 0 0 0 0 0 1 0]\n[4 5 5]\n[23 22 21 20 19 18 17 16 15 14 13 12 11 10 9 8 7 6 5 4 4 4]\n"

/-- `input` of examples/zeta_function_wrapper_genus3.cc:13. -/
def genus3Example : String :=
  "17\n[[1 2 1] [2 0 2] [3 1 0] [1 3 0] [2 2 0] [0 2 2] [1 1 2] [3 0 1] [0 0 4] [2 1 1] [1 0 3] [0 4 0]]\n[-3 1 1 -4 1 3 -3 1 2 3 -4 2]"

/-- `buffer` of examples/zeta_function_wrapper_K3.cc:20. -/
def k3Example : String :=
  "23\n[[4 0 0 0] [1  3  0  0]  [0  0  1  3]  [3  1  0  0]  [0  0  3  1]]\n[1 1  1  1  1]"

/-- examples/zeta_function_wrapper_genus3.cc:11-21 and examples/zeta_function_wrapper_K3.cc:12-27: `zeta_function` is called with verbose
output, one thread and the other options at their default values (wrapper.h:64-73).  The result is what the program holds when it ends;
the second one prints the polynomial. -/
def wrapperProgram (la : (p : Nat) → RankDet (ZMod p)) (rnd : (p : Nat) → Rnd (ZMod p)) (t : Nat)
    (frob : (p : Nat) → [Fact p.Prime] → FrobRoutine p) (text : String) : Res (Option (List Int × CMat Int)) :=
  zetaStr (zetaOf la rnd t frob) text.toList

end Verif
