import Mathlib.Data.Int.Log
import Mathlib.Algebra.Order.Round
import Mathlib.Data.Rat.Floor

/-!
# Seconds and milliseconds as `f64`: miscellaneous.rs, base_video.rs 789-863, 1142-1151, evf_video.rs 67, 184,
mvf_video.rs 131-134, 249, 292, avf_video.rs 193, 211, rmv_video.rs 210-220

Here, unlike in the rest of the model, a time is what a 64-bit float holds: every operation rounds.  `NaN`, infinities and the
range of exponents (no time is near `2^-1022` or `2^1024`) are left out.
-/

namespace Ms

/-- the integer nearest to `y`, the even one of two equally near -/
def roundEven (y : ℚ) : ℤ :=
  if y - ⌊y⌋ < 1 / 2 then ⌊y⌋ else if y - ⌊y⌋ > 1 / 2 then ⌊y⌋ + 1 else if ⌊y⌋ % 2 = 0 then ⌊y⌋ else ⌊y⌋ + 1

/-- the exponent of the last place of the `f64` near `x` -/
def lastPlace (x : ℚ) : ℤ := Int.log 2 |x| - 52

/-- IEEE 754 rounding to a `f64` (to nearest, ties to even; 53 bits; exponents unbounded). -/
def fl64 (x : ℚ) : ℚ := roundEven (x / 2 ^ lastPlace x) * 2 ^ lastPlace x

/-- `f64::round`: halves away from zero. -/
def roundAway (y : ℚ) : ℤ := if 0 ≤ y then ⌊y + 1 / 2⌋ else -⌊-y + 1 / 2⌋

/-- `as u32` of an integral `f64`: saturating. -/
def satU32 (n : ℤ) : Nat := min n.toNat 4294967295

/-- `s_to_ms`, miscellaneous.rs 6-8. -/
def sToMs (t : ℚ) : Nat := satU32 (roundAway (fl64 (t * 1000)))

/-- `time_ms as f64 / 1000.0`, base_video.rs 789, 813, 821, 846, 863, evf_video.rs 67, 184, rmv_video.rs 210, 220; the integer
is below `2^32`, its conversion exact. -/
def msToS (n : Nat) : ℚ := fl64 (n / 1000)

/-- `time_ms_between`, miscellaneous.rs 15-17; `micros` is `duration_since(..).as_micros()` (`duration_since` is 0 when `past` is
later). -/
def timeMsBetweenF (micros : Nat) : Nat := satU32 (roundAway (fl64 (fl64 micros / 1000)))

/-- the time of an AVF result: the text `T12.34` is parsed, then 1 is subtracted, avf_video.rs 191-193 -/
def avfResult (v : ℚ) : ℚ := fl64 (fl64 v - 1)

/-- the time of an AVF event, avf_video.rs 209-211: `sec - 1` and hundredths `h` -/
def avfTime (sec : Int) (h : Nat) : ℚ := fl64 (sec + fl64 (h / 100))

/-- the result of an MVF file, mvf_video.rs 131-134 -/
def mvfResult (sec h : Nat) : ℚ := fl64 (sec + fl64 (h / 100))

/-- the time of an MVF event, mvf_video.rs 249, 292 -/
def mvfTime (sec ths : Nat) : ℚ := fl64 (fl64 (ths / 1000) + sec)

end Ms
