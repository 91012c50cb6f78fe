import Verif.Model.IeeeSelect
import Verif.Lemmas.MachineSelect

/-!
# Lemmas about `f32` with infinities and NaN
-/

namespace Verif.F32
open Verif Verif.CoinSelect Verif.CoinSelect.Machine

theorem isF32_pow (k : Nat) : Spec.IsF32 ((2 : ℚ) ^ k) := by
  refine ⟨1, k, by norm_num, by omega, ?_⟩
  push_cast
  rw [one_mul, zpow_natCast]

theorem f32_pow (k : Nat) : f32 ((2 : ℚ) ^ k) = 2 ^ k := f32_of_isF32 (isF32_pow k)

theorem f32_nat_nonneg (n : Nat) : 0 ≤ f32 (n : ℚ) := f32_nonneg (by exact_mod_cast Nat.zero_le n)

theorem f32_nat_pos {n : Nat} (h : 0 < n) : 1 ≤ f32 (n : ℚ) := by
  have : f32 ((2 : ℚ) ^ 0) ≤ f32 (n : ℚ) := f32_mono (by rw [pow_zero]; exact_mod_cast h)
  rw [f32_pow, pow_zero] at this
  exact this

/-- `n as f32` of an unsigned integer of at most 64 bits is finite -/
theorem ofNat_eq_round {n : Nat} (h : n < 2 ^ 64) : ofNat n = round (n : ℚ) := by
  have h0 := f32_nat_nonneg n
  have h1 : f32 (n : ℚ) ≤ 2 ^ 64 := by
    rw [← f32_pow 64]
    exact f32_mono (by exact_mod_cast h.le)
  have h2 : (2 : ℚ) ^ 64 < 2 ^ 128 := by norm_num
  have h3 : (0 : ℚ) < 2 ^ 128 := by norm_num
  unfold ofNat round
  rw [if_neg (by linarith), if_neg (by linarith)]

theorem truncI_int (z : Int) : truncI (z : ℚ) = z := by
  unfold truncI
  split <;> simp

theorem satU_big {z : Int} (h : 2 ^ 64 - 1 ≤ z) : satU z = 2 ^ 64 - 1 := by
  unfold satU
  rw [min_eq_right h]
  rfl

theorem satU_neg {z : Int} (h : z ≤ 0) : satU z = 0 := by
  unfold satU
  rw [max_eq_left (le_trans (min_le_left _ _) h)]
  rfl

theorem satI_big {z : Int} (h : 2 ^ 63 - 1 ≤ z) : satI z = 2 ^ 63 - 1 := by
  unfold satI
  rw [min_eq_right h]
  exact max_eq_right (by norm_num)

theorem satI_small {z : Int} (h : z ≤ -2 ^ 63) : satI z = -2 ^ 63 := by
  unfold satI
  rw [min_eq_left (by linarith), max_eq_left h]

theorem truncI_big {x : ℚ} (h : (2 : ℚ) ^ 128 ≤ x) : 2 ^ 128 ≤ truncI x := by
  have h0 : (0 : ℚ) ≤ x := le_trans (by norm_num) h
  unfold truncI
  rw [if_pos h0]
  exact Int.le_floor.2 (by exact_mod_cast h)

theorem truncI_small {x : ℚ} (h : x ≤ -(2 : ℚ) ^ 128) : truncI x ≤ -2 ^ 128 := by
  have h0 : ¬ (0 : ℚ) ≤ x := not_le.2 (lt_of_le_of_lt h (by norm_num))
  unfold truncI
  rw [if_neg h0]
  exact Int.ceil_le.2 (by push_cast; exact h)

theorem ceil_big {x : ℚ} (h : (2 : ℚ) ^ 128 ≤ x) : 2 ^ 128 ≤ ⌈x⌉ := by
  have : (((2 : Int) ^ 128 : Int) : ℚ) ≤ (⌈x⌉ : ℚ) := le_trans (by push_cast; exact h) (Int.le_ceil x)
  exact_mod_cast this

theorem ceil_small {x : ℚ} (h : x ≤ -(2 : ℚ) ^ 128) : ⌈x⌉ ≤ -2 ^ 128 := Int.ceil_le.2 (by push_cast; exact h)

theorem toI64_round (x : ℚ) : toI64 (round x) = satI (truncI (f32 x)) := by
  unfold round
  split
  · next h => rw [satI_big (le_trans (by norm_num) (truncI_big h))]; rfl
  · split
    · next h => rw [satI_small (le_trans (truncI_small h) (by norm_num))]; rfl
    · rfl

theorem toI64_ceil_round (x : ℚ) : toI64 (ceil (round x)) = satI ⌈f32 x⌉ := by
  unfold round
  split
  · next h => rw [satI_big (le_trans (by norm_num) (ceil_big h))]; rfl
  · split
    · next h => rw [satI_small (le_trans (ceil_small h) (by norm_num))]; rfl
    · show satI (truncI ((⌈f32 x⌉ : Int) : ℚ)) = _
      rw [truncI_int]

theorem toU64_ceil_round (x : ℚ) : toU64 (ceil (round x)) = satU ⌈f32 x⌉ := by
  unfold round
  split
  · next h => rw [satU_big (le_trans (by norm_num) (ceil_big h))]; rfl
  · split
    · next h => rw [satU_neg (le_trans (ceil_small h) (by norm_num))]; rfl
    · show satU (truncI ((⌈f32 x⌉ : Int) : ℚ)) = _
      rw [truncI_int]

theorem satU_trunc (x : ℚ) : satU (truncI x) = satU ⌊x⌋ := by
  unfold truncI
  split
  · rfl
  · next h =>
    push_neg at h
    have h1 : ⌈x⌉ ≤ 0 := Int.ceil_le.2 (by exact_mod_cast h.le)
    have h2 : ⌊x⌋ ≤ 0 := le_trans (Int.floor_le_ceil x) h1
    rw [satU_neg h1, satU_neg h2]

theorem toU64_round (x : ℚ) : toU64 (round x) = satU ⌊f32 x⌋ := by
  rw [← satU_trunc]
  unfold round
  split
  · next h => rw [satU_big (le_trans (by norm_num) (truncI_big h))]; rfl
  · split
    · next h => rw [satU_neg (le_trans (truncI_small h) (by norm_num))]; rfl
    · rfl

/-- a weight times a rounded difference: an infinite difference saturates as its exact value would -/
theorem toI64_waste (w : Nat) (x : ℚ) : toI64 (mul (ofNat w) (round x)) = satI (truncI (mulF w (f32 x))) := by
  have hbig : ∀ y : ℚ, 0 < w → (2 : ℚ) ^ 128 ≤ y → (2 : ℚ) ^ 128 ≤ f32 (f32 w * y) := by
    intro y hw hy
    have h1 := f32_nat_pos hw
    have h2 : (2 : ℚ) ^ 128 ≤ f32 w * y := by
      have hy0 : (0 : ℚ) ≤ y := le_trans (by norm_num) hy
      nlinarith
    calc (2 : ℚ) ^ 128 = f32 (2 ^ 128) := (f32_pow 128).symm
      _ ≤ _ := f32_mono h2
  have hzero : mulF 0 (f32 x) = 0 := by
    unfold mulF
    rw [Nat.cast_zero, f32_zero, zero_mul, f32_zero]
  have htz : truncI (0 : ℚ) = 0 := by unfold truncI; simp
  unfold round
  split
  · next h =>
    rcases Nat.eq_zero_or_pos w with rfl | hw
    · rw [hzero, htz]
      show toI64 (if f32 ((0 : Nat) : ℚ) = 0 then _ else _) = _
      rw [if_pos (by rw [Nat.cast_zero, f32_zero])]
      rfl
    · have hp := f32_nat_pos hw
      show toI64 (if f32 (w : ℚ) = 0 then _ else _) = _
      rw [if_neg (by linarith), show decide (f32 (w : ℚ) < 0) = false from decide_eq_false (by linarith)]
      have h2 : (2 : ℚ) ^ 128 ≤ mulF w (f32 x) := hbig _ hw h
      rw [satI_big (le_trans (by norm_num) (truncI_big h2))]
      rfl
  · split
    · next h =>
      rcases Nat.eq_zero_or_pos w with rfl | hw
      · rw [hzero, htz]
        show toI64 (if f32 ((0 : Nat) : ℚ) = 0 then _ else _) = _
        rw [if_pos (by rw [Nat.cast_zero, f32_zero])]
        rfl
      · have hp := f32_nat_pos hw
        show toI64 (if f32 (w : ℚ) = 0 then _ else _) = _
        rw [if_neg (by linarith), show decide (f32 (w : ℚ) < 0) = false from decide_eq_false (by linarith)]
        have := hbig (- f32 x) hw (by linarith)
        rw [mul_neg, f32_neg] at this
        have h2 : mulF w (f32 x) ≤ -(2 : ℚ) ^ 128 := by unfold mulF; linarith
        rw [satI_small (le_trans (truncI_small h2) (by norm_num))]
        rfl
    · exact toI64_round _

/-- the sum of two rounded numbers that are not negative -/
theorem toI64_add_round {x y : ℚ} (hx : 0 ≤ x) (hy : 0 ≤ y) :
    toI64 (add (round x) (round y)) = satI (truncI (f32 (f32 x + f32 y))) := by
  have hx' := f32_nonneg hx
  have hy' := f32_nonneg hy
  have hp : (0 : ℚ) < 2 ^ 128 := by norm_num
  have hbig : (2 : ℚ) ^ 128 ≤ f32 x + f32 y → satI (truncI (f32 (f32 x + f32 y))) = 2 ^ 63 - 1 := by
    intro h
    have : (2 : ℚ) ^ 128 ≤ f32 (f32 x + f32 y) := by
      calc (2 : ℚ) ^ 128 = f32 (2 ^ 128) := (f32_pow 128).symm
        _ ≤ _ := f32_mono h
    exact satI_big (le_trans (by norm_num) (truncI_big this))
  unfold round
  by_cases h1 : (2 : ℚ) ^ 128 ≤ f32 x
  · rw [if_pos h1, hbig (by linarith)]
    by_cases h2 : (2 : ℚ) ^ 128 ≤ f32 y
    · rw [if_pos h2]; rfl
    · rw [if_neg h2, if_neg (by linarith)]; rfl
  · rw [if_neg h1, if_neg (by linarith)]
    by_cases h2 : (2 : ℚ) ^ 128 ≤ f32 y
    · rw [if_pos h2, hbig (by linarith)]; rfl
    · rw [if_neg h2, if_neg (by linarith)]
      exact toI64_round _

end Verif.F32
