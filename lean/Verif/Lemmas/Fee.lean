import Verif.Spec.CoinSelect
import Verif.Lemmas.Float32

/-! # Lemmas about the `f32` product of a weight and a rate, and the fee -/

namespace Verif.CoinSelect
open Spec

theorem f32_natCast {n : Nat} (h : n ≤ 2 ^ 24) : f32 (n : ℚ) = n := by
  have : IsF32 ((n : Int) : ℚ) := isF32_int (by rw [abs_of_nonneg (by omega)]; exact_mod_cast h)
  have := f32_of_isF32 this
  exact_mod_cast this

theorem mulF_eq (w : Nat) (r : ℚ) : mulF w r = product w r := rfl

theorem product_zero (r : ℚ) : product 0 r = 0 := by
  unfold product
  rw [Nat.cast_zero, f32_zero, zero_mul, f32_zero]

theorem product_nonneg (w : Nat) {r : ℚ} (hr : 0 ≤ r) : 0 ≤ product w r :=
  f32_nonneg (mul_nonneg (f32_nonneg (Nat.cast_nonneg w)) hr)

theorem product_nonpos (w : Nat) {r : ℚ} (hr : r ≤ 0) : product w r ≤ 0 := by
  unfold product
  have h := mul_nonpos_of_nonneg_of_nonpos (f32_nonneg (Nat.cast_nonneg (α := ℚ) w)) hr
  have := f32_mono h
  rwa [f32_zero] at this

theorem product_mono {w w' : Nat} (h : w ≤ w') {r : ℚ} (hr : 0 ≤ r) : product w r ≤ product w' r := by
  unfold product
  apply f32_mono
  apply mul_le_mul_of_nonneg_right _ hr
  apply f32_mono
  exact_mod_cast h

theorem product_small {w : Nat} (h : w ≤ 2 ^ 24) (r : ℚ) : product w r = f32 (w * r) := by
  unfold product; rw [f32_natCast h]

/-- no rounding at all -/
theorem product_exact {w : Nat} {r : ℚ} (h : w ≤ 2 ^ 24) (hp : IsF32 (w * r)) : product w r = w * r := by
  rw [product_small h, f32_of_isF32 hp]

/-- in the everyday range the product stays between the whole numbers around the exact one -/
theorem product_floor_ceil {w : Nat} {r : ℚ} (h : w ≤ 2 ^ 24) (h0 : 0 ≤ r) (hp : w * r ≤ 2 ^ 24) :
    (⌊(w : ℚ) * r⌋ : ℚ) ≤ product w r ∧ product w r ≤ (⌈(w : ℚ) * r⌉ : ℚ) := by
  rw [product_small h]
  have hnn : (0 : ℚ) ≤ w * r := mul_nonneg (Nat.cast_nonneg w) h0
  have hf0 : 0 ≤ ⌊(w : ℚ) * r⌋ := Int.floor_nonneg.2 hnn
  have hc1 : ⌈(w : ℚ) * r⌉ ≤ 2 ^ 24 := Int.ceil_le.2 (by push_cast; exact hp)
  have hfc : ⌊(w : ℚ) * r⌋ ≤ ⌈(w : ℚ) * r⌉ := Int.floor_le_ceil _
  constructor
  · have := f32_mono (Int.floor_le ((w : ℚ) * r))
    rwa [f32_of_isF32 (isF32_int (by rw [abs_of_nonneg hf0]; omega))] at this
  · have := f32_mono (Int.le_ceil ((w : ℚ) * r))
    rwa [f32_of_isF32 (isF32_int (by rw [abs_of_nonneg (by omega)]; exact hc1))] at this

theorem ceil_product_le {w : Nat} {r : ℚ} (h : w ≤ 2 ^ 24) (h0 : 0 ≤ r) (hp : w * r ≤ 2 ^ 24) :
    ⌈product w r⌉ ≤ ⌈(w : ℚ) * r⌉ :=
  Int.ceil_le.2 (product_floor_ceil h h0 hp).2

theorem lt_ceil_product {w : Nat} {r : ℚ} (h : w ≤ 2 ^ 24) (h0 : 0 ≤ r) (hp : w * r ≤ 2 ^ 24) :
    (w : ℚ) * r < ⌈product w r⌉ + 1 := by
  have h1 := (product_floor_ceil h h0 hp).1
  have h2 := Int.lt_floor_add_one ((w : ℚ) * r)
  have h3 := Int.le_ceil (product w r)
  linarith

theorem ceil_le_ceil_product {w : Nat} {r : ℚ} (h : w ≤ 2 ^ 24) (h0 : 0 ≤ r) (hp : w * r ≤ 2 ^ 24) :
    ⌈(w : ℚ) * r⌉ ≤ ⌈product w r⌉ + 1 :=
  Int.ceil_le.2 (by push_cast; exact (lt_ceil_product h h0 hp).le)

theorem minFee_cast {w : Nat} {r : ℚ} (h0 : 0 ≤ r) : (minFee w r : Int) = ⌈product w r⌉ := by
  unfold minFee
  rw [← Int.ceil_toNat, Int.toNat_of_nonneg]
  exact Int.ceil_nonneg (product_nonneg w h0)

theorem minFee_neg (w : Nat) {r : ℚ} (h0 : r ≤ 0) : minFee w r = 0 := by
  unfold minFee
  exact Nat.ceil_eq_zero.2 (product_nonpos w h0)

theorem minFee_mono {w w' : Nat} {r : ℚ} (hr : 0 ≤ r) (h : w ≤ w') : minFee w r ≤ minFee w' r :=
  Nat.ceil_le_ceil (product_mono h hr)

/-- everyday sizes: less than a satoshi below the exact product -/
theorem lt_minFee {w : Nat} {r : ℚ} (h : w ≤ 2 ^ 24) (hp : w * r ≤ 2 ^ 24) : (w : ℚ) * r < minFee w r + 1 := by
  rcases le_or_gt 0 r with h0 | h0
  · have := lt_ceil_product h h0 hp
    rw [← minFee_cast h0] at this
    exact_mod_cast this
  · have : (w : ℚ) * r ≤ 0 := mul_nonpos_of_nonneg_of_nonpos (Nat.cast_nonneg w) h0.le
    have : (0 : ℚ) ≤ minFee w r := Nat.cast_nonneg _
    linarith

/-- everyday sizes: never more than the exact product rounded up -/
theorem minFee_le_ceil {w : Nat} {r : ℚ} (h : w ≤ 2 ^ 24) (hp : w * r ≤ 2 ^ 24) : minFee w r ≤ ⌈(w : ℚ) * r⌉₊ := by
  rcases le_or_gt 0 r with h0 | h0
  · have := ceil_product_le h h0 hp
    rw [← minFee_cast h0] at this
    rw [← Int.ceil_toNat]; omega
  · rw [minFee_neg w h0.le]; exact Nat.zero_le _

theorem isF32_ge {r : ℚ} (h : IsF32 r) (h0 : 0 < r) : (2 : ℚ) ^ (-149 : Int) ≤ r := by
  obtain ⟨m, e, -, h2, rfl⟩ := h
  have hp := pow_pos2 e
  have hm : 0 < (m : ℚ) := by
    by_contra hc
    have : (m : ℚ) * 2 ^ e ≤ 0 := mul_nonpos_of_nonpos_of_nonneg (not_lt.1 hc) hp.le
    linarith
  have hm1 : (1 : ℚ) ≤ m := by
    have : 0 < m := by exact_mod_cast hm
    exact_mod_cast this
  have : (2 : ℚ) ^ (-149 : Int) ≤ 2 ^ e := zpow_le_zpow_right₀ (by norm_num) h2
  nlinarith

theorem isF32_pow {e : Int} (h : -149 ≤ e) : IsF32 ((2 : ℚ) ^ e) := ⟨1, e, by norm_num, h, by simp⟩

/-- all sizes: at most one part in `2 ^ 23` below the exact product -/
theorem minFee_relative {w : Nat} {r : ℚ} (hr : IsF32 r) : (w : ℚ) * r * (1 - 1 / 2 ^ 23) ≤ minFee w r := by
  rcases le_or_gt r 0 with h0 | h0
  · rw [minFee_neg w h0]
    have : (w : ℚ) * r ≤ 0 := mul_nonpos_of_nonneg_of_nonpos (Nat.cast_nonneg w) h0
    push_cast; nlinarith
  by_cases hw0 : w = 0
  · subst hw0; simp
  have hw : (1 : ℚ) ≤ w := by exact_mod_cast Nat.pos_of_ne_zero hw0
  have h126 : (2 : ℚ) ^ (-126 : Int) ≤ 1 := by
    rw [show (1 : ℚ) = 2 ^ (0 : Int) by simp]; exact zpow_le_zpow_right₀ (by norm_num) (by norm_num)
  have hfw : (w : ℚ) * (1 - 1 / 2 ^ 24) ≤ f32 w := by
    have := f32_rel (x := (w : ℚ)) (by rw [abs_of_pos (by linarith)]; linarith)
    rw [abs_of_pos (by linarith : (0 : ℚ) < w)] at this
    have := (abs_le.1 this).2
    linarith
  have hfw1 : 1 ≤ f32 (w : ℚ) := by
    have := f32_mono hw
    have h1 : f32 (1 : ℚ) = 1 := by exact_mod_cast f32_natCast (n := 1) (by norm_num)
    rwa [h1] at this
  have hle : product w r ≤ (minFee w r : ℚ) := Nat.le_ceil _
  set x := f32 (w : ℚ) * r with hx
  have hxw : (w : ℚ) * r * (1 - 1 / 2 ^ 24) ≤ x := by
    rw [hx]; nlinarith
  have hxp : 0 < x := by rw [hx]; positivity
  have hpr : product w r = f32 x := rfl
  rcases le_or_gt ((2 : ℚ) ^ (-126 : Int)) x with hb | hb
  · have := f32_rel (x := x) (by rwa [abs_of_pos hxp])
    rw [abs_of_pos hxp] at this
    have h2 := (abs_le.1 this).2
    have hwr : 0 < (w : ℚ) * r := by positivity
    rw [hpr] at hle
    nlinarith
  · have hr149 := isF32_ge hr h0
    have hx149 : (2 : ℚ) ^ (-149 : Int) ≤ x := by rw [hx]; nlinarith
    have h1 := f32_mono hx149
    rw [f32_of_isF32 (isF32_pow (le_refl _))] at h1
    have hpos : 0 < product w r := by rw [hpr]; exact lt_of_lt_of_le (pow_pos2 _) h1
    have : (1 : ℚ) ≤ minFee w r := by
      have : 0 < minFee w r := Nat.ceil_pos.2 hpos
      exact_mod_cast this
    have hwr : 0 < (w : ℚ) * r := by positivity
    have h126' : (2 : ℚ) ^ (-126 : Int) ≤ 1 / 4 := by
      rw [show (1 / 4 : ℚ) = 2 ^ (-2 : Int) by norm_num]; exact zpow_le_zpow_right₀ (by norm_num) (by norm_num)
    nlinarith

/-- a weight that is an `f32` itself is rounded once -/
theorem ceil_relative {w : Nat} {r : ℚ} (hw : w ≤ 2 ^ 24) (hr : IsF32 r) (h0 : 0 ≤ r) :
    (w : ℚ) * r * (1 - 1 / 2 ^ 24) ≤ ⌈product w r⌉ := by
  rw [product_small hw]
  have hle := Int.le_ceil (f32 (w * r))
  have hx0 : 0 ≤ (w : ℚ) * r := mul_nonneg (Nat.cast_nonneg w) h0
  rcases hx0.eq_or_lt with he | hxp
  · rw [← he, f32_zero]; simp
  rcases le_or_gt ((2 : ℚ) ^ (-126 : Int)) (w * r) with hb | hb
  · have := f32_rel (x := (w : ℚ) * r) (by rwa [abs_of_pos hxp])
    rw [abs_of_pos hxp] at this
    have h2 := (abs_le.1 this).2
    linarith
  · have hr0 : 0 < r := by
      rcases h0.eq_or_lt with he | h
      · rw [← he, mul_zero] at hxp; exact absurd hxp (lt_irrefl _)
      · exact h
    have hw1 : (1 : ℚ) ≤ w := by
      have : w ≠ 0 := by rintro rfl; simp at hxp
      exact_mod_cast Nat.pos_of_ne_zero this
    have hr149 := isF32_ge hr hr0
    have hx149 : (2 : ℚ) ^ (-149 : Int) ≤ w * r := by nlinarith
    have h1 := f32_mono hx149
    rw [f32_of_isF32 (isF32_pow (le_refl _))] at h1
    have : 0 < ⌈f32 ((w : ℚ) * r)⌉ := Int.ceil_pos.2 (lt_of_lt_of_le (pow_pos2 _) h1)
    have : (1 : ℚ) ≤ ⌈f32 ((w : ℚ) * r)⌉ := by exact_mod_cast this
    have h126' : (2 : ℚ) ^ (-126 : Int) ≤ 1 := by
      rw [show (1 : ℚ) = 2 ^ (0 : Int) by simp]; exact zpow_le_zpow_right₀ (by norm_num) (by norm_num)
    nlinarith

/-- a rate with `k` in the numerator and a power of two below: no rounding as long as the numerators of the products are below
`2 ^ 24` -/
theorem product_dyadic {w k j : Nat} {r : ℚ} (hr : r = k / 2 ^ j) (hj : j ≤ 149) (hw : w ≤ 2 ^ 24) (hk : w * k ≤ 2 ^ 24) :
    product w r = w * r := by
  apply product_exact hw
  rcases lt_or_eq_of_le hk with hk | hk
  · refine ⟨(w * k : Nat), -(j : Int), by rw [abs_of_nonneg (by omega)]; exact_mod_cast hk, by omega, ?_⟩
    rw [hr, zpow_neg, zpow_natCast]; push_cast; ring
  · refine ⟨2 ^ 23, 1 - (j : Int), by norm_num, by omega, ?_⟩
    rw [hr, zpow_sub₀ (by norm_num), zpow_natCast]
    have : (w : ℚ) * k = 2 ^ 24 := by exact_mod_cast hk
    rw [← mul_div_assoc, this]; norm_num; ring

theorem minFee_exact {w : Nat} {r : ℚ} (h : product w r = w * r) : minFee w r = ⌈(w : ℚ) * r⌉₊ := by
  unfold minFee; rw [h]

end Verif.CoinSelect
