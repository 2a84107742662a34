import Verif.Model.Frob
import Verif.Model.Construct
import Verif.Model.Save

/-!
Model of `hypersurface/test/test_K3p3.cc`.

The number drawn by `rand()` is a parameter.  PASS is `ok`, FAIL is `abort`; what is printed is left out.
-/

namespace Verif

/-- The rows of the table (hypersurface/test/test_K3p3.cc:53-73). -/
def k3p3Rows : List String :=
  ["[10215 6624 7554 17295 7875 1593 12858 15978 2622 5871 13809 3984 9399 10227 11580 9282 12636 11850 6147 11967 44]",
   "[58095 6957 18228 12594 9645 12654 3384 12999 6537 14559 3024 16077 5619 16572 8292 17121 12768 12564 5829 19641 185]",
   "[15552 7215 17370 6423 17787 18504 5037 6195 19650 11571 17901 15345 8697 5400 12201 2877 14061 18036 16749 17844 35]",
   "[54414 13917 17208 18579 7869 6405 5412 13218 3726 6840 8313 7386 6459 3813 17388 6981 10683 13032 17214 5355 214]",
   "[41787 3303 78 13122 624 12747 17568 1281 8916 8310 2757 8358 17742 14706 9279 2949 8235 13311 5934 14256 239]",
   "[24444 3570 2655 2367 4992 16287 8616 7407 14859 5715 4281 3978 7233 6570 6540 16824 13932 1563 13659 2946 45]",
   "[49302 10542 14751 1347 12015 6771 17400 18261 16146 19581 2859 18339 18177 11601 3927 13242 12051 4239 8385 \
    18414 234]",
   "[9648 11049 2571 8361 3495 14376 8046 810 8358 8280 6987 7023 14277 2523 15213 12963 9741 4881 11517 8559 155]",
   "[28089 15495 4641 12603 15195 825 13152 16491 9990 3054 804 9669 7107 6021 16329 18546 441 5133 7608 11220 162]",
   "[7893 6495 16809 8700 14274 16692 1986 10428 13644 12627 12009 2109 12477 12786 774 630 5214 5580 13773 234 172]",
   "[9567 6621 4437 15072 17280 18117 18693 7677 7872 4404 3516 6450 18492 13296 16590 303 7680 7146 18465 3972 73]",
   "[17802 10017 12378 11583 15456 2391 17976 18708 3093 1155 9654 840 18633 651 5427 8883 15255 19146 13788 18360 95]",
   "[43344 14373 2241 2088 10842 17094 2994 7509 3672 9825 1347 1530 210 11649 708 8196 8754 12129 19059 3075 108]",
   "[27027 9765 1533 2892 7920 13410 249 13026 14793 16470 5082 7506 15777 1275 15753 12897 942 9105 12141 18774 14]",
   "[20880 9357 6114 8178 16512 8022 13020 18504 15444 4686 864 10053 16065 14970 4161 2112 12003 7557 12423 3519 186]",
   "[38808 1806 2007 7152 19404 9396 19680 3507 8313 7812 3492 19524 18513 19656 12426 516 1392 19629 6903 7038 203]",
   "[48744 10767 2346 5475 11238 2925 17094 2814 8199 13668 5676 1944 10635 5658 18849 16494 8925 762 18906 6204 139]",
   "[58635 16446 12198 5631 2634 14733 12570 18123 19566 14118 627 15444 14238 3876 18531 16767 489 13569 12828 15807 216]",
   "[45216 5004 246 1128 12777 165 1002 17247 10083 15834 4356 5211 2640 5454 15282 13725 16200 11274 4953 11076 222]",
   "[27648 12465 3402 5103 2421 2166 18045 10344 5721 15195 3321 14016 16260 7794 5133 2112 11634 1269 10149 13593 241]",
   "[24462 17739 16317 7599 14409 18978 8706 9093 4884 2295 5892 8178 12396 8613 4899 4467 2118 12123 4179 12078 152]"]

/-- `absolute_precision` (hypersurface/test/test_K3p3.cc:38). -/
def k3p3Abs : String := "[24 23 22 21 20 19 18 17 16 15 14 13 12 11 10 9 8 7 6 5 5 5]"

/-- `f_vector` (hypersurface/test/test_K3p3.cc:48). -/
def k3p3Coeffs : String := "[1 2 1 1 1 1 0 0 0 0 1 0 2 1 1 2 0 2 0 1 1 2 1 0 1 1 0 0 2 1 1 1 2 1 1]"

/-- What is written to `buffer` (hypersurface/test/test_K3p3.cc:38, 48, 52-74), one text after the other.  Every vector is read
before the next one is written, and `operator>>` stops after the closing bracket, so that the text read is this one. -/
def k3p3Text : Str :=
  k3p3Abs.toList ++ (k3p3Coeffs.toList ++ '[' :: '\n' :: (k3p3Rows.flatMap (fun s => s.toList ++ ['\n']) ++ [']']))

/-- What the program reads: `absolute_precision`, `f_vector`, `Frob_expected` (hypersurface/test/test_K3p3.cc:36-39, 46-49,
51-76). -/
def k3p3Read (s : Str) : Res (List Int × List (ZMod 3) × CMat (ZMod (3 ^ 16))) := do
  let a ← readVec readInt s
  let f ← readVec (readMod 3) a.2
  let rows ← readVec (readVec (readMod (3 ^ 16))) f.2
  let E ← makeMatrix rows.1
  pure (a.1, f.1, E)

/-- `frob == Frob_expected[i]` after the transposition (hypersurface/test/test_K3p3.cc:77, 85): column `i` of the table. -/
def isColumn {R : Type} [DecidableEq R] (F : CVec R) (E : CMat R) (i : Nat) : Bool :=
  decide (F.len = E.rows) && (List.range F.len).all (fun k => decide (F.e k = E.e k i))

/-- The computation (hypersurface/test/test_K3p3.cc:79-85, 97): `r` is the value of `rand()`.  One object is used for the three
calls, so that the table of powers is handed on.  (`Frob_expected` has 21 columns; a table with fewer would be read out of bounds.) -/
def k3p3Check (la : LinAlg (ZMod 3)) (flint : Bool) (r : Nat) (f : List (ZMod 3)) (E : CMat (ZMod (3 ^ 16))) : Res Unit := do
  let solve : Solver (ZMod (3 ^ 16)) := fun T => solveSystemPadic la flint T 16
  let D ← DR.ofBarVec solve 3 4 f
  let F0 ← frobJ solve D 3 (fpowStart 3) 0 7
  let i := r % 19 + 1
  let F1 ← frobJ solve D 3 F0.2 i 7
  let F2 ← frobJ solve D 3 F1.2 20 8
  if E.cols ≤ 20 then .error .ub
  else if isColumn F0.1 E 0 && isColumn F1.1 E i && isColumn F2.1 E 20 then .ok ()
  else .error .abort

/-- `main` (hypersurface/test/test_K3p3.cc:17-101). -/
def k3p3Main (la : LinAlg (ZMod 3)) (flint : Bool) (r : Nat) : Res Unit := do
  let x ← k3p3Read k3p3Text
  k3p3Check la flint r x.2.1 x.2.2

end Verif
