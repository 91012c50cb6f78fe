import Mathlib.Data.Rat.Floor
import Mathlib.Algebra.Order.Field.Power

/-!
# Model of the `f32` arithmetic the coin selector uses

`f32` is IEEE 754 binary32 with rounding to nearest, ties to even.  A finite `f32` is represented by the rational number it stands
for (the sign of zero is not kept); infinities and NaN are in Model/Ieee: here results of 2^128 and more stay finite.  Every operation of
the code (`n as f32`, `*`, `+`, `-`) is the exact operation followed by `f32`.
-/

namespace Verif.CoinSelect

/-- the nearest integer; the even one of two -/
def roundEven (q : ℚ) : Int :=
  let f := ⌊q⌋
  if q - f < 1 / 2 then f
  else if 1 / 2 < q - f then f + 1
  else if f % 2 = 0 then f else f + 1

/-- the exponent of the leading bit: `2 ^ log2Q x ≤ |x| < 2 ^ (log2Q x + 1)` for `x ≠ 0` -/
def log2Q (x : ℚ) : Int :=
  let l : Int := (x.num.natAbs.log2 : Int) - (x.den.log2 : Int)
  if (2 : ℚ) ^ l ≤ |x| then l else l - 1

/-- the exponent of the last bit of the significand of 24 bits (IEEE 754 binary32: at least -149) -/
def ulpExp (x : ℚ) : Int := max (log2Q x - 23) (-149)

/-- rounding to `f32` -/
def f32 (x : ℚ) : ℚ := roundEven (x / 2 ^ ulpExp x) * 2 ^ ulpExp x

end Verif.CoinSelect
