import Mathlib.Data.Rat.Floor
import Mathlib.Algebra.Order.Field.Power

/-!
# Specification vocabulary: IEEE 754 binary32
-/

namespace Verif.CoinSelect.Spec

/-- `r` is a finite `f32` (or would be, were the exponents unbounded above): a significand of 24 bits times a power of two that is not
below the least subnormal, `2 ^ -149` -/
def IsF32 (r : ℚ) : Prop := ∃ m e : Int, |m| < 2 ^ 24 ∧ -149 ≤ e ∧ r = m * 2 ^ e

/-- `r` is what IEEE 754 prescribes for the exact result `x`: the nearest `f32`, and if there is another one just as near, the one that
is an even multiple of the distance between the two -/
def IsRounded (x r : ℚ) : Prop :=
  IsF32 r ∧ ∀ r', IsF32 r' → |x - r| ≤ |x - r'| ∧ (|x - r'| = |x - r| → r' ≠ r → ∃ k : Int, r = 2 * k * |r - r'|)

end Verif.CoinSelect.Spec
