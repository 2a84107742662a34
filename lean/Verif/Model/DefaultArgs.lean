import Verif.Core.Res

/-!
Model of `tools/default_args.cc`: the table of working precisions, transcribed literally.
-/

namespace Verif

/-- The three values filled in by `default_args`. -/
structure DefaultArgs where
  precision : Int
  N : List Int
  charpolyPrec : List Int
  deriving DecidableEq

/-- `default_args(precision, N, charpoly_prec, p, n, d)` (tools/default_args.cc:13-179).  The
`stringstream` round trip of the two vectors is the identity.  The last `else` of each block cannot
be reached (in the code the vectors would then fail to parse). -/
def defaultArgs (p n d : Int) : Res DefaultArgs :=
  if n = 2 ∧ d = 3 then
    if p < 5 then
      .ok ⟨5, [2, 3], [2, 2, 2]⟩
    else if 5 ≤ p ∧ p < 17 then
      .ok ⟨3, [2, 2], [2, 2, 2]⟩
    else if 17 ≤ p then
      .ok ⟨1, [0, 1], [3, 1, 1]⟩
    else .error .abort
  else if n = 2 ∧ d = 4 then
    if p < 5 then
      .ok ⟨7, [4, 4], [5, 4, 3, 3, 3, 3, 3]⟩
    else if 5 ≤ p ∧ p < 17 then
      .ok ⟨5, [3, 3], [5, 4, 3, 3, 3, 3, 3]⟩
    else if 17 ≤ p then
      .ok ⟨3, [2, 2], [4, 3, 2, 2, 2, 2, 2]⟩
    else .error .abort
  else if n = 2 ∧ d = 5 then
    if p < 5 then
      .ok ⟨12, [6, 6], [10, 9, 8, 7, 6, 5, 5, 5, 5, 5, 5, 5, 5]⟩
    else if 5 ≤ p ∧ p < 7 then
      .ok ⟨9, [4, 5], [9, 8, 7, 6, 5, 4, 4, 4, 4, 4, 4, 4, 4]⟩
    else if 7 ≤ p then
      .ok ⟨7, [4, 4], [9, 8, 7, 6, 5, 4, 4, 4, 4, 4, 4, 4, 4]⟩
    else .error .abort
  else if n = 2 ∧ d = 6 then
    if p < 5 then
      .ok ⟨19, [8, 9], [16, 15, 14, 13, 12, 11, 10, 9, 8, 7, 7, 7, 7, 7, 7, 7, 7, 7, 7, 7, 7]⟩
    else if 5 ≤ p ∧ p < 7 then
      .ok ⟨13, [7, 7], [15, 14, 13, 12, 11, 10, 9, 8, 7, 6, 6, 6, 6, 6, 6, 6, 6, 6, 6, 6, 6]⟩
    else if 7 ≤ p ∧ p < 11 then
      .ok ⟨13, [6, 7], [15, 14, 13, 12, 11, 10, 9, 8, 7, 6, 6, 6, 6, 6, 6, 6, 6, 6, 6, 6, 6]⟩
    else if 11 ≤ p then
      .ok ⟨11, [6, 6], [15, 14, 13, 12, 11, 10, 9, 8, 7, 6, 6, 6, 6, 6, 6, 6, 6, 6, 6, 6, 6]⟩
    else .error .abort
  else if n = 2 ∧ d = 7 then
    if p < 5 then
      .ok ⟨23, [11, 11], [23, 22, 21, 20, 19, 18, 17, 16, 15, 14, 13, 12, 11, 10, 9, 9, 9, 9, 9,
        9, 9, 9, 9, 9, 9, 9, 9, 9, 9, 9, 9]⟩
    else if 5 ≤ p ∧ p < 7 then
      .ok ⟨20, [10, 10], [23, 22, 21, 20, 19, 18, 17, 16, 15, 14, 13, 12, 11, 10, 9, 9, 9, 9, 9,
        9, 9, 9, 9, 9, 9, 9, 9, 9, 9, 9, 9]⟩
    else if 7 ≤ p ∧ p < 11 then
      .ok ⟨19, [10, 10], [23, 22, 21, 20, 19, 18, 17, 16, 15, 14, 13, 12, 11, 10, 9, 9, 9, 9, 9,
        9, 9, 9, 9, 9, 9, 9, 9, 9, 9, 9, 9]⟩
    else if 11 ≤ p ∧ p < 17 then
      .ok ⟨17, [9, 9], [23, 22, 21, 20, 19, 18, 17, 16, 15, 14, 13, 12, 11, 10, 9, 9, 9, 9, 9, 9,
        9, 9, 9, 9, 9, 9, 9, 9, 9, 9, 9]⟩
    else if 17 ≤ p then
      .ok ⟨15, [8, 8], [22, 21, 20, 19, 18, 17, 16, 15, 14, 13, 12, 11, 10, 9, 8, 8, 8, 8, 8, 8,
        8, 8, 8, 8, 8, 8, 8, 8, 8, 8, 8]⟩
    else .error .abort
  else if n = 2 ∧ d = 8 then
    if p < 5 then
      .ok ⟨30, [14, 14], [32, 31, 30, 29, 28, 27, 26, 25, 24, 23, 22, 21, 20, 19, 18, 17, 16, 15,
        14, 13, 12, 12, 12, 12, 12, 12, 12, 12, 12, 12, 12, 12, 12, 12, 12, 12, 12, 12, 12, 12,
        12, 12, 12]⟩
    else if 5 ≤ p ∧ p < 7 then
      .ok ⟨26, [13, 13], [32, 31, 30, 29, 28, 27, 26, 25, 24, 23, 22, 21, 20, 19, 18, 17, 16, 15,
        14, 13, 12, 12, 12, 12, 12, 12, 12, 12, 12, 12, 12, 12, 12, 12, 12, 12, 12, 12, 12, 12,
        12, 12, 12]⟩
    else if 7 ≤ p ∧ p < 13 then
      .ok ⟨25, [13, 13], [32, 31, 30, 29, 28, 27, 26, 25, 24, 23, 22, 21, 20, 19, 18, 17, 16, 15,
        14, 13, 12, 12, 12, 12, 12, 12, 12, 12, 12, 12, 12, 12, 12, 12, 12, 12, 12, 12, 12, 12,
        12, 12, 12]⟩
    else if 13 ≤ p ∧ p < 17 then
      .ok ⟨25, [12, 13], [32, 31, 30, 29, 28, 27, 26, 25, 24, 23, 22, 21, 20, 19, 18, 17, 16, 15,
        14, 13, 12, 12, 12, 12, 12, 12, 12, 12, 12, 12, 12, 12, 12, 12, 12, 12, 12, 12, 12, 12,
        12, 12, 12]⟩
    else if 17 ≤ p then
      .ok ⟨21, [11, 11], [31, 30, 29, 28, 27, 26, 25, 24, 23, 22, 21, 20, 19, 18, 17, 16, 15, 14,
        13, 12, 11, 11, 11, 11, 11, 11, 11, 11, 11, 11, 11, 11, 11, 11, 11, 11, 11, 11, 11, 11,
        11, 11, 11]⟩
    else .error .abort
  else if n = 2 ∧ d = 9 then
    if p < 5 then
      .ok ⟨41, [18, 18], [43, 42, 41, 40, 39, 38, 37, 36, 35, 34, 33, 32, 31, 30, 29, 28, 27, 26,
        25, 24, 23, 22, 21, 20, 19, 18, 17, 16, 16, 16, 16, 16, 16, 16, 16, 16, 16, 16, 16, 16,
        16, 16, 16, 16, 16, 16, 16, 16, 16, 16, 16, 16, 16, 16, 16, 16, 16]⟩
    else if 5 ≤ p ∧ p < 7 then
      .ok ⟨33, [16, 16], [42, 41, 40, 39, 38, 37, 36, 35, 34, 33, 32, 31, 30, 29, 28, 27, 26, 25,
        24, 23, 22, 21, 20, 19, 18, 17, 16, 15, 15, 15, 15, 15, 15, 15, 15, 15, 15, 15, 15, 15,
        15, 15, 15, 15, 15, 15, 15, 15, 15, 15, 15, 15, 15, 15, 15, 15, 15]⟩
    else if 7 ≤ p ∧ p < 11 then
      .ok ⟨32, [16, 16], [42, 41, 40, 39, 38, 37, 36, 35, 34, 33, 32, 31, 30, 29, 28, 27, 26, 25,
        24, 23, 22, 21, 20, 19, 18, 17, 16, 15, 15, 15, 15, 15, 15, 15, 15, 15, 15, 15, 15, 15,
        15, 15, 15, 15, 15, 15, 15, 15, 15, 15, 15, 15, 15, 15, 15, 15, 15]⟩
    else if 11 ≤ p ∧ p < 17 then
      .ok ⟨31, [16, 16], [42, 41, 40, 39, 38, 37, 36, 35, 34, 33, 32, 31, 30, 29, 28, 27, 26, 25,
        24, 23, 22, 21, 20, 19, 18, 17, 16, 15, 15, 15, 15, 15, 15, 15, 15, 15, 15, 15, 15, 15,
        15, 15, 15, 15, 15, 15, 15, 15, 15, 15, 15, 15, 15, 15, 15, 15, 15]⟩
    else if 17 ≤ p then
      .ok ⟨29, [15, 15], [42, 41, 40, 39, 38, 37, 36, 35, 34, 33, 32, 31, 30, 29, 28, 27, 26, 25,
        24, 23, 22, 21, 20, 19, 18, 17, 16, 15, 15, 15, 15, 15, 15, 15, 15, 15, 15, 15, 15, 15,
        15, 15, 15, 15, 15, 15, 15, 15, 15, 15, 15, 15, 15, 15, 15, 15, 15]⟩
    else .error .abort
  else if n = 3 ∧ d = 4 then
    if p < 5 then
      .ok ⟨16, [7, 7, 8], [24, 23, 22, 21, 20, 19, 18, 17, 16, 15, 14, 13, 12, 11, 10, 9, 8, 7,
        6, 5, 5, 5]⟩
    else if 5 ≤ p ∧ p < 7 then
      .ok ⟨9, [4, 5, 5], [23, 22, 21, 20, 19, 18, 17, 16, 15, 14, 13, 12, 11, 10, 9, 8, 7, 6, 5,
        4, 4, 4]⟩
    else if 7 ≤ p ∧ p < 23 then
      .ok ⟨6, [4, 4, 3], [23, 22, 21, 20, 19, 18, 17, 16, 15, 14, 13, 12, 11, 10, 9, 8, 7, 6, 5,
        4, 3, 3]⟩
    else if 23 ≤ p ∧ p < 43 then
      .ok ⟨5, [3, 3, 3], [22, 21, 20, 19, 18, 17, 16, 15, 14, 13, 12, 11, 10, 9, 8, 7, 6, 5, 4,
        3, 3, 3]⟩
    else if 43 ≤ p then
      .ok ⟨4, [3, 3, 2], [22, 21, 20, 19, 18, 17, 16, 15, 14, 13, 12, 11, 10, 9, 8, 7, 6, 5, 4,
        3, 2, 2]⟩
    else .error .abort
  else if n = 3 ∧ d = 5 then
    if p < 5 then
      .ok ⟨21, [11, 11, 10], [58, 56, 54, 52, 51, 50, 49, 48, 47, 46, 45, 44, 43, 42, 41, 40, 39,
        38, 37, 36, 35, 34, 33, 32, 31, 30, 29, 28, 27, 26, 25, 24, 23, 22, 21, 20, 19, 18, 17,
        16, 15, 14, 13, 12, 11, 10, 9, 8, 7, 7, 7, 7, 7]⟩
    else if 5 ≤ p ∧ p < 7 then
      .ok ⟨17, [8, 8, 9], [57, 55, 53, 51, 50, 49, 48, 47, 46, 45, 44, 43, 42, 41, 40, 39, 38,
        37, 36, 35, 34, 33, 32, 31, 30, 29, 28, 27, 26, 25, 24, 23, 22, 21, 20, 19, 18, 17, 16,
        15, 14, 13, 12, 11, 10, 9, 8, 7, 7, 7, 7, 7, 7]⟩
    else if 7 ≤ p ∧ p < 11 then
      .ok ⟨14, [8, 8, 7], [57, 55, 53, 51, 50, 49, 48, 47, 46, 45, 44, 43, 42, 41, 40, 39, 38,
        37, 36, 35, 34, 33, 32, 31, 30, 29, 28, 27, 26, 25, 24, 23, 22, 21, 20, 19, 18, 17, 16,
        15, 14, 13, 12, 11, 10, 9, 8, 7, 6, 6, 6, 6, 6]⟩
    else if 11 ≤ p ∧ p < 23 then
      .ok ⟨12, [7, 7, 6], [57, 55, 53, 51, 50, 49, 48, 47, 46, 45, 44, 43, 42, 41, 40, 39, 38,
        37, 36, 35, 34, 33, 32, 31, 30, 29, 28, 27, 26, 25, 24, 23, 22, 21, 20, 19, 18, 17, 16,
        15, 14, 13, 12, 11, 10, 9, 8, 7, 6, 6, 6, 6, 6]⟩
    else if 23 ≤ p ∧ p < 29 then
      .ok ⟨11, [6, 6, 6], [56, 54, 52, 50, 49, 48, 47, 46, 45, 44, 43, 42, 41, 40, 39, 38, 37,
        36, 35, 34, 33, 32, 31, 30, 29, 28, 27, 26, 25, 24, 23, 22, 21, 20, 19, 18, 17, 16, 15,
        14, 13, 12, 11, 10, 9, 8, 7, 6, 6, 6, 6, 6, 6]⟩
    else if 29 ≤ p then
      .ok ⟨10, [6, 6, 5], [56, 54, 52, 50, 49, 48, 47, 46, 45, 44, 43, 42, 41, 40, 39, 38, 37,
        36, 35, 34, 33, 32, 31, 30, 29, 28, 27, 26, 25, 24, 23, 22, 21, 20, 19, 18, 17, 16, 15,
        14, 13, 12, 11, 10, 9, 8, 7, 6, 5, 5, 5, 5, 5]⟩
    else .error .abort
  else if n = 3 ∧ d = 6 then
    if p < 5 then
      .ok ⟨38, [17, 18, 17], [117, 115, 113, 111, 109, 107, 105, 103, 101, 99, 98, 97, 96, 95,
        94, 93, 92, 91, 90, 89, 88, 87, 86, 85, 84, 83, 82, 81, 80, 79, 78, 77, 76, 75, 74, 73,
        72, 71, 70, 69, 68, 67, 66, 65, 64, 63, 62, 61, 60, 59, 58, 57, 56, 55, 54, 53, 52, 51,
        50, 49, 48, 47, 46, 45, 44, 43, 42, 41, 40, 39, 38, 37, 36, 35, 34, 33, 32, 31, 30, 29,
        28, 27, 26, 25, 24, 23, 22, 21, 20, 19, 18, 17, 16, 15, 14, 13, 13, 13, 13, 13, 13, 13,
        13, 13, 13, 13]⟩
    else if 5 ≤ p ∧ p < 7 then
      .ok ⟨29, [15, 15, 14], [116, 114, 112, 110, 108, 106, 104, 102, 100, 98, 97, 96, 95, 94,
        93, 92, 91, 90, 89, 88, 87, 86, 85, 84, 83, 82, 81, 80, 79, 78, 77, 76, 75, 74, 73, 72,
        71, 70, 69, 68, 67, 66, 65, 64, 63, 62, 61, 60, 59, 58, 57, 56, 55, 54, 53, 52, 51, 50,
        49, 48, 47, 46, 45, 44, 43, 42, 41, 40, 39, 38, 37, 36, 35, 34, 33, 32, 31, 30, 29, 28,
        27, 26, 25, 24, 23, 22, 21, 20, 19, 18, 17, 16, 15, 14, 13, 12, 12, 12, 12, 12, 12, 12,
        12, 12, 12, 12]⟩
    else if 7 ≤ p ∧ p < 11 then
      .ok ⟨28, [15, 15, 14], [116, 114, 112, 110, 108, 106, 104, 102, 100, 98, 97, 96, 95, 94,
        93, 92, 91, 90, 89, 88, 87, 86, 85, 84, 83, 82, 81, 80, 79, 78, 77, 76, 75, 74, 73, 72,
        71, 70, 69, 68, 67, 66, 65, 64, 63, 62, 61, 60, 59, 58, 57, 56, 55, 54, 53, 52, 51, 50,
        49, 48, 47, 46, 45, 44, 43, 42, 41, 40, 39, 38, 37, 36, 35, 34, 33, 32, 31, 30, 29, 28,
        27, 26, 25, 24, 23, 22, 21, 20, 19, 18, 17, 16, 15, 14, 13, 12, 12, 12, 12, 12, 12, 12,
        12, 12, 12, 12]⟩
    else if 11 ≤ p ∧ p < 17 then
      .ok ⟨26, [14, 14, 13], [116, 114, 112, 110, 108, 106, 104, 102, 100, 98, 97, 96, 95, 94,
        93, 92, 91, 90, 89, 88, 87, 86, 85, 84, 83, 82, 81, 80, 79, 78, 77, 76, 75, 74, 73, 72,
        71, 70, 69, 68, 67, 66, 65, 64, 63, 62, 61, 60, 59, 58, 57, 56, 55, 54, 53, 52, 51, 50,
        49, 48, 47, 46, 45, 44, 43, 42, 41, 40, 39, 38, 37, 36, 35, 34, 33, 32, 31, 30, 29, 28,
        27, 26, 25, 24, 23, 22, 21, 20, 19, 18, 17, 16, 15, 14, 13, 12, 12, 12, 12, 12, 12, 12,
        12, 12, 12, 12]⟩
    else if 17 ≤ p ∧ p < 23 then
      .ok ⟨24, [13, 13, 12], [116, 114, 112, 110, 108, 106, 104, 102, 100, 98, 97, 96, 95, 94,
        93, 92, 91, 90, 89, 88, 87, 86, 85, 84, 83, 82, 81, 80, 79, 78, 77, 76, 75, 74, 73, 72,
        71, 70, 69, 68, 67, 66, 65, 64, 63, 62, 61, 60, 59, 58, 57, 56, 55, 54, 53, 52, 51, 50,
        49, 48, 47, 46, 45, 44, 43, 42, 41, 40, 39, 38, 37, 36, 35, 34, 33, 32, 31, 30, 29, 28,
        27, 26, 25, 24, 23, 22, 21, 20, 19, 18, 17, 16, 15, 14, 13, 12, 12, 12, 12, 12, 12, 12,
        12, 12, 12, 12]⟩
    else if 23 ≤ p then
      .ok ⟨22, [12, 12, 11], [115, 113, 111, 109, 107, 105, 103, 101, 99, 97, 96, 95, 94, 93, 92,
        91, 90, 89, 88, 87, 86, 85, 84, 83, 82, 81, 80, 79, 78, 77, 76, 75, 74, 73, 72, 71, 70,
        69, 68, 67, 66, 65, 64, 63, 62, 61, 60, 59, 58, 57, 56, 55, 54, 53, 52, 51, 50, 49, 48,
        47, 46, 45, 44, 43, 42, 41, 40, 39, 38, 37, 36, 35, 34, 33, 32, 31, 30, 29, 28, 27, 26,
        25, 24, 23, 22, 21, 20, 19, 18, 17, 16, 15, 14, 13, 12, 11, 11, 11, 11, 11, 11, 11, 11,
        11, 11, 11]⟩
    else .error .abort
  else .error .abort

end Verif
