import Verif.Model.MachineSelect

/-!
# `f32` with its infinities and NaN

The operations of `f32` that bdk_coin_select uses, on all values.  A finite value is the rational number it stands for (the
two zeros are one value: the code neither divides by an amount that can be a negative zero nor looks at its sign); every
operation on finite values is the exact one followed by rounding (Model/Float32), and a result of at least 2^128 in magnitude
is infinite.
-/

namespace Verif

/-- an `f32` -/
inductive F32 where
  | fin (q : ℚ)
  | inf (negative : Bool)
  | nan
deriving DecidableEq

namespace F32
open Verif.CoinSelect

/-- the `f32` nearest to `x` -/
def round (x : ℚ) : F32 :=
  if (2 : ℚ) ^ 128 ≤ f32 x then .inf false else if f32 x ≤ -(2 : ℚ) ^ 128 then .inf true else .fin (f32 x)

/-- `n as f32` of an unsigned integer of at most 64 bits, which is never infinite (`ofNat_eq_round`) -/
def ofNat (n : Nat) : F32 := .fin (f32 n)

/-- `-a` -/
def neg : F32 → F32
  | .fin q => .fin (-q)
  | .inf n => .inf (!n)
  | .nan => .nan

/-- `a + b`: infinities of opposite signs have no sum -/
def add : F32 → F32 → F32
  | .fin a, .fin b => round (a + b)
  | .fin _, .inf n => .inf n
  | .inf n, .fin _ => .inf n
  | .inf n, .inf m => if n = m then .inf n else .nan
  | _, _ => .nan

/-- `a - b` -/
def sub (a b : F32) : F32 := add a (neg b)

/-- `a * b`: zero times infinity has no value -/
def mul : F32 → F32 → F32
  | .fin a, .fin b => round (a * b)
  | .fin a, .inf n => if a = 0 then .nan else .inf (n != decide (a < 0))
  | .inf n, .fin a => if a = 0 then .nan else .inf (n != decide (a < 0))
  | .inf n, .inf m => .inf (n != m)
  | _, _ => .nan

/-- `a.ceil()` (an integer of at most 2^24 in magnitude, or `a` itself, so no rounding) -/
def ceil : F32 → F32
  | .fin q => .fin ⌈q⌉
  | x => x

/-- `a as u64`: truncates, saturates, NaN is 0 -/
def toU64 : F32 → Nat
  | .fin q => Machine.satU (truncI q)
  | .inf n => if n then 0 else 2 ^ 64 - 1
  | .nan => 0

/-- `a as i64`: truncates, saturates, NaN is 0 -/
def toI64 : F32 → Int
  | .fin q => Machine.satI (truncI q)
  | .inf n => if n then -2 ^ 63 else 2 ^ 63 - 1
  | .nan => 0

/-- `a > b`: false if one of them is NaN -/
def gt : F32 → F32 → Bool
  | .fin a, .fin b => decide (b < a)
  | .fin _, .inf n => n
  | .inf n, .fin _ => !n
  | .inf n, .inf m => !n && m
  | _, _ => false

end F32
end Verif
