/-!
Time differences (timing.h).
-/

namespace Verif

/-- `timeval` and `timespec`: seconds and a fraction, in units of `10^-6` or `10^-9` seconds. -/
structure TimeVal where
  sec : Int
  frac : Int

/-- `timevaldiff_in_seconds(start, end)` (timing.h:11-27): the seconds and the microseconds added in the last line.  The type `int` of
`nsec` is not modelled, nor the rounding of the result. -/
def timevalDiff (s e : TimeVal) : Int × Int :=
  let s := if e.frac < s.frac then
      let k := (s.frac - e.frac).tdiv 1000000 + 1
      (⟨s.sec + k, s.frac - 1000000 * k⟩ : TimeVal)
    else s
  let s := if 1000000 < e.frac - s.frac then
      let k := (e.frac - s.frac).tdiv 1000000
      (⟨s.sec - k, s.frac + 1000000 * k⟩ : TimeVal)
    else s
  (e.sec - s.sec, e.frac - s.frac)

/-- `timestamp_diff_in_seconds(start, end)` (timing.h:58-69), `timespec`. -/
def timestampDiff (s e : TimeVal) : Int × Int :=
  if e.frac - s.frac < 0 then (e.sec - s.sec - 1, 1000000000 + e.frac - s.frac)
  else (e.sec - s.sec, e.frac - s.frac)

end Verif
