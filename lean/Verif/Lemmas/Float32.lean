import Verif.Model.Float32
import Verif.Spec.Float32
import Mathlib.Tactic.Linarith
import Mathlib.Tactic.Ring
import Mathlib.Tactic.Positivity
import Mathlib.Tactic.FieldSimp
import Mathlib.Tactic.NormNum
import Mathlib.Data.Nat.Log

/-!
# `f32` is IEEE 754 rounding: nearest, monotone, exact on `f32`s, relative error
-/

namespace Verif.CoinSelect

theorem roundEven_cases (q : ℚ) : (roundEven q = ⌊q⌋ ∧ q - ⌊q⌋ ≤ 1 / 2) ∨ (roundEven q = ⌊q⌋ + 1 ∧ 1 / 2 ≤ q - ⌊q⌋) := by
  unfold roundEven
  simp only
  by_cases h1 : q - ⌊q⌋ < 1 / 2
  · rw [if_pos h1]; exact .inl ⟨rfl, h1.le⟩
  · rw [if_neg h1]
    by_cases h2 : 1 / 2 < q - ⌊q⌋
    · rw [if_pos h2]; exact .inr ⟨rfl, h2.le⟩
    · rw [if_neg h2]
      by_cases h3 : ⌊q⌋ % 2 = 0
      · rw [if_pos h3]; exact .inl ⟨rfl, not_lt.1 h2⟩
      · rw [if_neg h3]; exact .inr ⟨rfl, not_lt.1 h1⟩

theorem roundEven_err (q : ℚ) : |q - roundEven q| ≤ 1 / 2 := by
  have h1 := Int.floor_le q
  have h2 := Int.lt_floor_add_one q
  rcases roundEven_cases q with ⟨h, h3⟩ | ⟨h, h3⟩ <;> rw [h] <;> rw [abs_le] <;> push_cast <;> constructor <;> linarith

theorem roundEven_int (n : Int) : roundEven (n : ℚ) = n := by
  unfold roundEven
  simp

theorem roundEven_tie_even {q : ℚ} (h : q - ⌊q⌋ = 1 / 2) : roundEven q % 2 = 0 := by
  unfold roundEven
  simp only [h, lt_irrefl, if_false]
  by_cases h3 : ⌊q⌋ % 2 = 0
  · rw [if_pos h3]; exact h3
  · rw [if_neg h3]; omega

theorem roundEven_mono {a b : ℚ} (h : a ≤ b) : roundEven a ≤ roundEven b := by
  have hf := Int.floor_le_floor h
  rcases lt_or_eq_of_le hf with hlt | heq
  · have h1 : roundEven a ≤ ⌊a⌋ + 1 := by rcases roundEven_cases a with ⟨h, -⟩ | ⟨h, -⟩ <;> omega
    have h2 : ⌊b⌋ ≤ roundEven b := by rcases roundEven_cases b with ⟨h, -⟩ | ⟨h, -⟩ <;> omega
    omega
  · unfold roundEven
    simp only [← heq]
    have hab : a - ⌊a⌋ ≤ b - ⌊a⌋ := by linarith
    by_cases h1 : a - ⌊a⌋ < 1 / 2
    · rw [if_pos h1]; split_ifs <;> omega
    · rw [if_neg h1, if_neg (not_lt.2 (le_trans (not_lt.1 h1) hab))]
      by_cases h2 : 1 / 2 < a - ⌊a⌋
      · rw [if_pos h2, if_pos (lt_of_lt_of_le h2 hab)]
      · rw [if_neg h2]
        split_ifs <;> omega

theorem roundEven_neg (q : ℚ) : roundEven (-q) = - roundEven q := by
  by_cases hi : (⌊q⌋ : ℚ) = q
  · rw [← hi, ← Int.cast_neg, roundEven_int, roundEven_int]
  · have h1 := Int.floor_le q
    have h2 := Int.lt_floor_add_one q
    have hlt : (⌊q⌋ : ℚ) < q := lt_of_le_of_ne h1 hi
    have hfl : ⌊-q⌋ = -⌊q⌋ - 1 := by
      rw [Int.floor_eq_iff]; push_cast; constructor <;> linarith
    unfold roundEven
    simp only [hfl]
    have e : -q - ((-⌊q⌋ - 1 : Int) : ℚ) = 1 - (q - ⌊q⌋) := by push_cast; ring
    rw [e]
    by_cases c1 : q - ⌊q⌋ < 1 / 2
    · rw [if_neg (by linarith), if_pos (by linarith), if_pos c1]; omega
    · by_cases c2 : 1 / 2 < q - ⌊q⌋
      · rw [if_pos (by linarith), if_neg c1, if_pos c2]; omega
      · rw [if_neg (by linarith), if_neg (by linarith), if_neg c1, if_neg c2]
        by_cases c3 : ⌊q⌋ % 2 = 0
        · rw [if_pos c3, if_neg (by omega)]; omega
        · rw [if_neg c3, if_pos (by omega)]; omega

/-! ## the leading bit -/

theorem log2Q_spec {x : ℚ} (hx : x ≠ 0) : (2 : ℚ) ^ log2Q x ≤ |x| ∧ |x| < (2 : ℚ) ^ (log2Q x + 1) := by
  have hn : x.num.natAbs ≠ 0 := by simpa using hx
  have hd : x.den ≠ 0 := x.den_nz
  set a := x.num.natAbs.log2 with ha
  set b := x.den.log2 with hb
  have h1 : 2 ^ a ≤ x.num.natAbs := Nat.log2_self_le hn
  have h2 : x.num.natAbs < 2 ^ (a + 1) := Nat.lt_log2_self
  have h3 : 2 ^ b ≤ x.den := Nat.log2_self_le hd
  have h4 : x.den < 2 ^ (b + 1) := Nat.lt_log2_self
  have habs : |x| = (x.num.natAbs : ℚ) / x.den := by
    conv_lhs => rw [← Rat.num_div_den x]
    rw [abs_div, Nat.abs_cast, Nat.cast_natAbs]
    push_cast; rfl
  have hdpos : (0 : ℚ) < x.den := by exact_mod_cast Nat.pos_of_ne_zero hd
  have g1 : ((2 : ℚ) ^ a) ≤ x.num.natAbs := by exact_mod_cast h1
  have g2 : (x.num.natAbs : ℚ) < 2 ^ (a + 1) := by exact_mod_cast h2
  have g3 : ((2 : ℚ) ^ b) ≤ x.den := by exact_mod_cast h3
  have g4 : (x.den : ℚ) < 2 ^ (b + 1) := by exact_mod_cast h4
  have hl : (2 : ℚ) ^ ((a : Int) - b) = 2 ^ a / 2 ^ b := by
    rw [zpow_sub₀ (by norm_num), zpow_natCast, zpow_natCast]
  have pa : (0 : ℚ) < 2 ^ a := by positivity
  have pb : (0 : ℚ) < 2 ^ b := by positivity
  -- upper and lower bound of the quotient
  have hup : |x| < (2 : ℚ) ^ ((a : Int) - b + 1) := by
    rw [zpow_add₀ (by norm_num), hl, zpow_one, habs, div_lt_iff₀ hdpos]
    have : (2 : ℚ) ^ (a + 1) ≤ 2 ^ a / 2 ^ b * 2 * x.den := by
      have : (2 : ℚ) ^ a / 2 ^ b * 2 * 2 ^ b ≤ 2 ^ a / 2 ^ b * 2 * x.den := by
        apply mul_le_mul_of_nonneg_left g3; positivity
      refine le_trans (le_of_eq ?_) this
      field_simp
      ring
    linarith
  have hlow : (2 : ℚ) ^ ((a : Int) - b - 1) ≤ |x| := by
    rw [zpow_sub₀ (by norm_num), hl, zpow_one, habs, le_div_iff₀ hdpos]
    have : 2 ^ a / 2 ^ b / 2 * (x.den : ℚ) ≤ 2 ^ a := by
      have : 2 ^ a / 2 ^ b / 2 * (x.den : ℚ) ≤ 2 ^ a / 2 ^ b / 2 * 2 ^ (b + 1) := by
        apply mul_le_mul_of_nonneg_left g4.le; positivity
      refine le_trans this (le_of_eq ?_)
      field_simp
      ring
    linarith
  unfold log2Q
  simp only [← ha, ← hb]
  by_cases hc : (2 : ℚ) ^ ((a : Int) - b) ≤ |x|
  · rw [if_pos hc]; exact ⟨hc, hup⟩
  · rw [if_neg hc]
    refine ⟨hlow, ?_⟩
    rw [sub_add_cancel]
    exact not_le.1 hc

theorem log2Q_neg (x : ℚ) : log2Q (-x) = log2Q x := by
  unfold log2Q
  simp

theorem ulpExp_neg (x : ℚ) : ulpExp (-x) = ulpExp x := by unfold ulpExp; rw [log2Q_neg]

theorem f32_neg (x : ℚ) : f32 (-x) = - f32 x := by
  unfold f32
  rw [ulpExp_neg, neg_div, roundEven_neg]
  push_cast; ring

theorem f32_zero : f32 0 = 0 := by
  unfold f32
  rw [zero_div]
  have : roundEven 0 = 0 := by exact_mod_cast roundEven_int 0
  rw [this]; simp

theorem log2Q_le {x : ℚ} (hx : x ≠ 0) {k : Int} (h : |x| < 2 ^ (k + 1)) : log2Q x ≤ k := by
  by_contra hc
  have h1 : (2 : ℚ) ^ (k + 1) ≤ 2 ^ log2Q x := zpow_le_zpow_right₀ (by norm_num) (by omega)
  linarith [(log2Q_spec hx).1]

theorem le_log2Q {x : ℚ} (hx : x ≠ 0) {k : Int} (h : 2 ^ k ≤ |x|) : k ≤ log2Q x := by
  by_contra hc
  have h1 : (2 : ℚ) ^ (log2Q x + 1) ≤ 2 ^ k := zpow_le_zpow_right₀ (by norm_num) (by omega)
  linarith [(log2Q_spec hx).2]

theorem pow_pos2 (e : Int) : (0 : ℚ) < 2 ^ e := zpow_pos (by norm_num) e

/-- a power of two is a whole multiple of a smaller one -/
theorem pow_multiple {e e' : Int} (h : e ≤ e') : (2 : ℚ) ^ e' = ((2 ^ (e' - e).toNat : Int) : ℚ) * 2 ^ e := by
  have : e' = ((e' - e).toNat : Int) + e := by omega
  conv_lhs => rw [this]
  rw [zpow_add₀ (by norm_num), zpow_natCast]
  push_cast; rfl

/-- rounding on the grid does not pass a grid point -/
theorem f32_le_grid {x : ℚ} {n : Int} (h : x ≤ n * 2 ^ ulpExp x) : f32 x ≤ n * 2 ^ ulpExp x := by
  unfold f32
  have h1 : x / 2 ^ ulpExp x ≤ n := by rw [div_le_iff₀ (pow_pos2 _)]; exact h
  have h2 := roundEven_mono h1
  rw [roundEven_int] at h2
  apply mul_le_mul_of_nonneg_right _ (pow_pos2 _).le
  exact_mod_cast h2

theorem grid_le_f32 {x : ℚ} {n : Int} (h : n * 2 ^ ulpExp x ≤ x) : n * 2 ^ ulpExp x ≤ f32 x := by
  unfold f32
  have h1 : (n : ℚ) ≤ x / 2 ^ ulpExp x := by rw [le_div_iff₀ (pow_pos2 _)]; exact h
  have h2 := roundEven_mono h1
  rw [roundEven_int] at h2
  apply mul_le_mul_of_nonneg_right _ (pow_pos2 _).le
  exact_mod_cast h2

theorem f32_nonneg {x : ℚ} (h : 0 ≤ x) : 0 ≤ f32 x := by
  have := grid_le_f32 (x := x) (n := 0) (by simpa using h)
  simpa using this

theorem f32_mono_pos {x y : ℚ} (hx : 0 < x) (h : x ≤ y) : f32 x ≤ f32 y := by
  have hy : 0 < y := lt_of_lt_of_le hx h
  obtain ⟨hx1, hx2⟩ := log2Q_spec hx.ne'
  obtain ⟨hy1, hy2⟩ := log2Q_spec hy.ne'
  rw [abs_of_pos hx] at hx1 hx2
  rw [abs_of_pos hy] at hy1 hy2
  by_cases he : ulpExp x = ulpExp y
  · unfold f32
    rw [he]
    apply mul_le_mul_of_nonneg_right _ (pow_pos2 _).le
    have : x / 2 ^ ulpExp y ≤ y / 2 ^ ulpExp y := div_le_div_of_nonneg_right h (pow_pos2 _).le
    exact_mod_cast roundEven_mono this
  · have hlog : log2Q x ≤ log2Q y := by
      apply log2Q_le hx.ne'
      rw [abs_of_pos hx]; linarith
    have hlt : log2Q x < log2Q y ∧ ulpExp y = log2Q y - 23 ∧ ulpExp x ≤ ulpExp y := by
      unfold ulpExp at he ⊢
      omega
    obtain ⟨h1, h2, h3⟩ := hlt
    have e1 : (2 : ℚ) ^ log2Q y = ((2 ^ 23 : Int) : ℚ) * 2 ^ ulpExp y := by
      have t : (log2Q y - ulpExp y).toNat = 23 := by omega
      have := pow_multiple (e := ulpExp y) (e' := log2Q y) (by omega)
      rw [t] at this
      exact this
    have e2 := pow_multiple (e := ulpExp x) (e' := log2Q y) (by omega)
    have a1 : x ≤ 2 ^ log2Q y := le_trans hx2.le (zpow_le_zpow_right₀ (by norm_num) (by omega))
    have a2 : f32 x ≤ 2 ^ log2Q y := by
      rw [e2] at a1 ⊢; exact f32_le_grid a1
    have a3 : (2 : ℚ) ^ log2Q y ≤ f32 y := by
      rw [e1] at hy1 ⊢; exact grid_le_f32 hy1
    linarith

theorem f32_mono {x y : ℚ} (h : x ≤ y) : f32 x ≤ f32 y := by
  rcases lt_trichotomy x 0 with hx | hx | hx
  · rcases le_or_gt 0 y with hy | hy
    · have h1 := f32_nonneg (x := -x) (by linarith)
      rw [f32_neg] at h1
      linarith [f32_nonneg hy]
    · have := f32_mono_pos (x := -y) (y := -x) (by linarith) (by linarith)
      rw [f32_neg, f32_neg] at this
      linarith
  · subst hx; rw [f32_zero]; exact f32_nonneg h
  · exact f32_mono_pos hx h

/-! ## `f32`s -/

open Spec

theorem isF32_neg {r : ℚ} (h : IsF32 r) : IsF32 (-r) := by
  obtain ⟨m, e, h1, h2, rfl⟩ := h
  exact ⟨-m, e, by rwa [abs_neg], h2, by push_cast; ring⟩

theorem isF32_zero : IsF32 0 := ⟨0, 0, by norm_num, by norm_num, by simp⟩

/-- an `f32` is on the grid of any number that is not smaller -/
theorem isF32_grid {r x : ℚ} (h : IsF32 r) (hx : x ≠ 0) (hle : |x| ≤ |r| ∨ r = 0) :
    ∃ n : Int, r = n * 2 ^ ulpExp x := by
  obtain ⟨m, e, h1, h2, rfl⟩ := h
  rcases hle with hle | h0
  · have h1' : (|(m : ℚ)|) < 2 ^ 24 := by exact_mod_cast h1
    have hlt : |x| < 2 ^ (e + 23 + 1) := by
      refine lt_of_le_of_lt hle ?_
      rw [abs_mul, abs_of_pos (pow_pos2 e)]
      have : (2 : ℚ) ^ (e + 23 + 1) = 2 ^ 24 * 2 ^ e := by
        rw [show e + 23 + 1 = (24 : Int) + e by ring, zpow_add₀ (by norm_num)]; norm_num
      rw [this]
      exact mul_lt_mul_of_pos_right h1' (pow_pos2 e)
    have h3 := log2Q_le hx hlt
    have h4 : ulpExp x ≤ e := by unfold ulpExp; omega
    refine ⟨m * 2 ^ (e - ulpExp x).toNat, ?_⟩
    rw [pow_multiple h4]
    push_cast; ring
  · exact ⟨0, by rw [h0]; simp⟩

theorem f32_of_isF32 {r : ℚ} (h : IsF32 r) : f32 r = r := by
  by_cases h0 : r = 0
  · rw [h0, f32_zero]
  · obtain ⟨n, hn⟩ := isF32_grid h h0 (.inl (le_refl _))
    have h1 := f32_le_grid (x := r) (n := n) hn.le
    have h2 := grid_le_f32 (x := r) (n := n) hn.ge
    linarith

theorem f32_isF32 (x : ℚ) : IsF32 (f32 x) := by
  by_cases h0 : x = 0
  · rw [h0, f32_zero]; exact isF32_zero
  · obtain ⟨-, h2⟩ := log2Q_spec h0
    have hle : |x| ≤ ((2 ^ 24 : Int) : ℚ) * 2 ^ ulpExp x := by
      have h3 : (2 : ℚ) ^ (log2Q x + 1) ≤ 2 ^ ((24 : Int) + ulpExp x) := zpow_le_zpow_right₀ (by norm_num) (by unfold ulpExp; omega)
      have h4 : (2 : ℚ) ^ ((24 : Int) + ulpExp x) = 2 ^ (24 : Int) * 2 ^ ulpExp x := zpow_add₀ (by norm_num) _ _
      have : ((2 ^ 24 : Int) : ℚ) = 2 ^ (24 : Int) := by norm_num
      rw [this, ← h4]; linarith
    have hup := f32_le_grid (x := x) (n := 2 ^ 24) (le_trans (le_abs_self x) hle)
    have hlo := grid_le_f32 (x := x) (n := -(2 ^ 24)) (by
      have := neg_abs_le x
      push_cast at hle ⊢
      linarith)
    unfold f32 at hup hlo ⊢
    set m := roundEven (x / 2 ^ ulpExp x)
    have hm : |m| ≤ 2 ^ 24 := by
      rw [abs_le]
      constructor
      · have := le_of_mul_le_mul_right hlo (pow_pos2 _)
        exact_mod_cast this
      · have := le_of_mul_le_mul_right hup (pow_pos2 _)
        exact_mod_cast this
    have he : -149 ≤ ulpExp x := by unfold ulpExp; omega
    rcases lt_or_eq_of_le hm with h | h
    · exact ⟨m, ulpExp x, h, he, rfl⟩
    · rcases eq_or_eq_neg_of_abs_eq h with h | h <;> rw [h]
      · refine ⟨2 ^ 23, ulpExp x + 1, by norm_num, by omega, ?_⟩
        rw [zpow_add₀ (by norm_num)]; push_cast; ring
      · refine ⟨-2 ^ 23, ulpExp x + 1, by norm_num, by omega, ?_⟩
        rw [zpow_add₀ (by norm_num)]; push_cast; ring

/-- whole numbers up to 2^24 are `f32`s -/
theorem isF32_int {n : Int} (h : |n| ≤ 2 ^ 24) : IsF32 n := by
  rcases lt_or_eq_of_le h with h | h
  · exact ⟨n, 0, h, by norm_num, by simp⟩
  · rcases eq_or_eq_neg_of_abs_eq h with h | h <;> rw [h]
    · exact ⟨2 ^ 23, 1, by norm_num, by norm_num, by norm_num⟩
    · exact ⟨-2 ^ 23, 1, by norm_num, by norm_num, by norm_num⟩

theorem f32_err (x : ℚ) : |x - f32 x| ≤ 2 ^ ulpExp x / 2 := by
  have h := roundEven_err (x / 2 ^ ulpExp x)
  have hp := pow_pos2 (ulpExp x)
  have : x - f32 x = (x / 2 ^ ulpExp x - roundEven (x / 2 ^ ulpExp x)) * 2 ^ ulpExp x := by
    unfold f32; field_simp
  rw [this, abs_mul, abs_of_pos hp]
  have := mul_le_mul_of_nonneg_right h hp.le
  linarith

/-- the relative error of normal numbers -/
theorem f32_rel {x : ℚ} (h : (2 : ℚ) ^ (-126 : Int) ≤ |x|) : |x - f32 x| ≤ |x| / 2 ^ 24 := by
  have h0 : x ≠ 0 := by
    rintro rfl
    rw [abs_zero] at h
    linarith [pow_pos2 (-126)]
  have h1 := f32_err x
  have h2 : -126 ≤ log2Q x := le_log2Q h0 h
  have h3 : ulpExp x = log2Q x - 23 := by unfold ulpExp; omega
  have h4 := (log2Q_spec h0).1
  rw [h3, zpow_sub₀ (by norm_num)] at h1
  have e : (2 : ℚ) ^ (23 : Int) = 2 ^ 23 := by norm_num
  rw [e] at h1
  have : (2 : ℚ) ^ log2Q x / 2 ^ 23 / 2 ≤ |x| / 2 ^ 23 / 2 := by
    apply div_le_div_of_nonneg_right _ (by norm_num)
    exact div_le_div_of_nonneg_right h4 (by norm_num)
  have e2 : |x| / 2 ^ 24 = |x| / 2 ^ 23 / 2 := by ring
  linarith

/-- nearest -/
theorem f32_nearest_grid (x : ℚ) (n : Int) : |x - f32 x| ≤ |x - n * 2 ^ ulpExp x| := by
  have hp := pow_pos2 (ulpExp x)
  set q := x / 2 ^ ulpExp x with hq
  have hx : x = q * 2 ^ ulpExp x := by rw [hq]; field_simp
  have e1 : x - f32 x = (q - roundEven q) * 2 ^ ulpExp x := by
    unfold f32; rw [← hq, sub_mul]; rw [← hx]
  have e2 : x - n * 2 ^ ulpExp x = (q - n) * 2 ^ ulpExp x := by rw [sub_mul, ← hx]
  rw [e1, e2, abs_mul, abs_mul]
  apply mul_le_mul_of_nonneg_right _ (abs_nonneg _)
  by_cases hn : n = roundEven q
  · rw [hn]
  · -- two integers at distance at least one
    have h1 := roundEven_err q
    have h2 : (1 : ℚ) ≤ |(roundEven q : ℚ) - n| := by
      have : 1 ≤ |roundEven q - n| := Int.one_le_abs (sub_ne_zero.2 (Ne.symm hn))
      exact_mod_cast this
    have h3 : |(roundEven q : ℚ) - n| ≤ |q - roundEven q| + |q - n| := by
      have := abs_sub_le (roundEven q : ℚ) q n
      rw [abs_sub_comm (roundEven q : ℚ) q] at this
      exact this
    linarith


/-- nearest among all `f32`s -/
theorem f32_nearest (x : ℚ) {r : ℚ} (hr : IsF32 r) : |x - f32 x| ≤ |x - r| := by
  by_cases h0 : x = 0
  · rw [h0, f32_zero]; simp
  by_cases hg : ∃ n : Int, r = n * 2 ^ ulpExp x
  · obtain ⟨n, rfl⟩ := hg
    exact f32_nearest_grid x n
  · -- `r` is below the binade of `x`, whose lower end is on the grid
    obtain ⟨m, e, h1, h2, rfl⟩ := hr
    have he : e < ulpExp x := by
      by_contra hc
      apply hg
      refine ⟨m * 2 ^ (e - ulpExp x).toNat, ?_⟩
      rw [pow_multiple (not_lt.1 hc)]
      push_cast; ring
    have hu : ulpExp x = log2Q x - 23 := by unfold ulpExp at he ⊢; omega
    have hlow := (log2Q_spec h0).1
    have e1 : (2 : ℚ) ^ log2Q x = ((2 ^ 23 : Int) : ℚ) * 2 ^ ulpExp x := by
      have t : (log2Q x - ulpExp x).toNat = 23 := by omega
      have := pow_multiple (e := ulpExp x) (e' := log2Q x) (by omega)
      rw [t] at this
      exact this
    have h1' : (|(m : ℚ)|) < 2 ^ 24 := by exact_mod_cast h1
    have hsmall : |(m : ℚ) * 2 ^ e| ≤ 2 ^ log2Q x := by
      rw [abs_mul, abs_of_pos (pow_pos2 e)]
      have a1 : |(m : ℚ)| * 2 ^ e ≤ 2 ^ 24 * 2 ^ e := mul_le_mul_of_nonneg_right h1'.le (pow_pos2 e).le
      have a2 : (2 : ℚ) ^ ((24 : Int) + e) = 2 ^ (24 : Int) * 2 ^ e := zpow_add₀ (by norm_num) _ _
      have a3 : (2 : ℚ) ^ ((24 : Int) + e) ≤ 2 ^ log2Q x := zpow_le_zpow_right₀ (by norm_num) (by omega)
      have a4 : (2 : ℚ) ^ (24 : Int) = 2 ^ 24 := by norm_num
      rw [a2, a4] at a3
      linarith
    rcases le_or_gt 0 x with hx | hx
    · refine le_trans (f32_nearest_grid x (2 ^ 23)) ?_
      rw [← e1]
      rw [abs_of_nonneg hx] at hlow
      have b1 := (abs_le.1 hsmall).2
      rw [abs_of_nonneg (by linarith), abs_of_nonneg (by linarith)]
      linarith
    · refine le_trans (f32_nearest_grid x (-(2 ^ 23))) ?_
      have e2 : ((-(2 ^ 23) : Int) : ℚ) * 2 ^ ulpExp x = - 2 ^ log2Q x := by rw [e1]; push_cast; ring
      rw [e2]
      rw [abs_of_neg hx] at hlow
      have b1 := (abs_le.1 hsmall).1
      rw [abs_of_nonpos (by linarith), abs_of_nonpos (by linarith)]
      linarith

/-- ... ties go to the even multiple -/
theorem f32_tie (x : ℚ) {r : ℚ} (hr : IsF32 r) (htie : |x - r| = |x - f32 x|) (hne : r ≠ f32 x) :
    ∃ k : Int, f32 x = 2 * k * |f32 x - r| := by
  have hx0 : x ≠ 0 := by
    rintro rfl
    apply hne
    rw [f32_zero] at htie ⊢
    simpa using htie
  -- both have the same distance from `x`, on different sides
  have hsides : x - r = -(x - f32 x) := by
    rcases abs_eq_abs.1 htie with h | h
    · exact absurd (by linarith) hne
    · exact h
  have hd : |f32 x - r| = 2 * |x - f32 x| := by
    have : f32 x - r = -2 * (x - f32 x) := by linarith
    rw [this, abs_mul]; norm_num
  have hp := pow_pos2 (ulpExp x)
  -- the distance is half a unit: otherwise `r`, on the grid or not, is not as near
  have hgrid : ∃ n : Int, r = n * 2 ^ ulpExp x := by
    by_contra hg
    obtain ⟨m, e, h1, h2, rfl⟩ := hr
    have he : e < ulpExp x := by
      by_contra hc
      apply hg
      refine ⟨m * 2 ^ (e - ulpExp x).toNat, ?_⟩
      rw [pow_multiple (not_lt.1 hc)]
      push_cast; ring
    have hu : ulpExp x = log2Q x - 23 := by unfold ulpExp at he ⊢; omega
    have hlow := (log2Q_spec hx0).1
    have e1 : (2 : ℚ) ^ log2Q x = ((2 ^ 23 : Int) : ℚ) * 2 ^ ulpExp x := by
      have t : (log2Q x - ulpExp x).toNat = 23 := by omega
      have := pow_multiple (e := ulpExp x) (e' := log2Q x) (by omega)
      rw [t] at this
      exact this
    have h1' : (|(m : ℚ)|) < 2 ^ 24 := by exact_mod_cast h1
    have hsmall : |(m : ℚ) * 2 ^ e| < 2 ^ log2Q x := by
      rw [abs_mul, abs_of_pos (pow_pos2 e)]
      have a1 : |(m : ℚ)| * 2 ^ e < 2 ^ 24 * 2 ^ e := mul_lt_mul_of_pos_right h1' (pow_pos2 e)
      have a2 : (2 : ℚ) ^ ((24 : Int) + e) = 2 ^ (24 : Int) * 2 ^ e := zpow_add₀ (by norm_num) _ _
      have a3 : (2 : ℚ) ^ ((24 : Int) + e) ≤ 2 ^ log2Q x := zpow_le_zpow_right₀ (by norm_num) (by omega)
      have a4 : (2 : ℚ) ^ (24 : Int) = 2 ^ 24 := by norm_num
      rw [a2, a4] at a3
      linarith
    rcases le_or_gt 0 x with hx | hx
    · have g := f32_nearest_grid x (2 ^ 23)
      rw [← e1] at g
      rw [abs_of_nonneg hx] at hlow
      have b1 := (abs_lt.1 hsmall).2
      rw [← htie, abs_of_nonneg (by linarith), abs_of_nonneg (by linarith)] at g
      linarith
    · have g := f32_nearest_grid x (-(2 ^ 23))
      have e2 : ((-(2 ^ 23) : Int) : ℚ) * 2 ^ ulpExp x = - 2 ^ log2Q x := by rw [e1]; push_cast; ring
      rw [e2] at g
      rw [abs_of_neg hx] at hlow
      have b1 := (abs_lt.1 hsmall).1
      rw [← htie, abs_of_nonpos (by linarith), abs_of_nonpos (by linarith)] at g
      linarith
  obtain ⟨n, hn⟩ := hgrid
  set q := x / 2 ^ ulpExp x with hq
  have hxq : x = q * 2 ^ ulpExp x := by rw [hq]; field_simp
  have hf : f32 x = roundEven q * 2 ^ ulpExp x := rfl
  -- in units of the grid
  have hs2 : q - n = -(q - roundEven q) := by
    rw [hn, hf] at hsides
    have : (q - n) * 2 ^ ulpExp x = -(q - roundEven q) * 2 ^ ulpExp x := by
      have : (q - n) * 2 ^ ulpExp x = x - n * 2 ^ ulpExp x := by rw [sub_mul, ← hxq]
      rw [this, hsides, neg_mul, sub_mul, ← hxq]
    exact mul_right_cancel₀ hp.ne' this
  have hnr : n ≠ roundEven q := by
    rintro rfl
    exact hne (by rw [hn, hf])
  have herr := roundEven_err q
  have hhalf : |q - roundEven q| = 1 / 2 := by
    have h2 : (1 : ℚ) ≤ |(roundEven q : ℚ) - n| := by
      have : 1 ≤ |roundEven q - n| := Int.one_le_abs (sub_ne_zero.2 (Ne.symm hnr))
      exact_mod_cast this
    have h3 : (roundEven q : ℚ) - n = -2 * (q - roundEven q) := by linarith
    rw [h3, abs_mul] at h2
    norm_num at h2 herr ⊢
    linarith
  have hfloor : q - ⌊q⌋ = 1 / 2 := by
    rcases roundEven_cases q with ⟨h, -⟩ | ⟨h, -⟩
    · rw [h, abs_of_nonneg (sub_nonneg.2 (Int.floor_le q))] at hhalf
      exact hhalf
    · rw [h] at hhalf
      have := Int.lt_floor_add_one q
      rw [abs_of_nonpos (by push_cast; linarith)] at hhalf
      push_cast at hhalf
      linarith
  have heven := roundEven_tie_even hfloor
  have hone : |f32 x - r| = 2 ^ ulpExp x := by
    rw [hd]
    have : x - f32 x = (q - roundEven q) * 2 ^ ulpExp x := by rw [hf, sub_mul, ← hxq]
    rw [this, abs_mul, hhalf, abs_of_pos hp]
    ring
  refine ⟨roundEven q / 2, ?_⟩
  rw [hone, hf]
  congr 1
  have : roundEven q = 2 * (roundEven q / 2) := by omega
  exact_mod_cast this

theorem f32_isRounded (x : ℚ) : IsRounded x (f32 x) :=
  ⟨f32_isF32 x, fun _ hr => ⟨f32_nearest x hr, fun h1 h2 => f32_tie x hr h1 h2⟩⟩

/-- IEEE 754 prescribes one result -/
theorem isRounded_unique {x r : ℚ} (h : IsRounded x r) : r = f32 x := by
  by_contra hne
  obtain ⟨h1, h2⟩ := h
  obtain ⟨a1, a2⟩ := h2 _ (f32_isF32 x)
  have b1 := f32_nearest x h1
  have htie : |x - f32 x| = |x - r| := le_antisymm b1 a1
  obtain ⟨k, hk⟩ := a2 htie (Ne.symm hne)
  obtain ⟨j, hj⟩ := f32_tie x h1 htie.symm hne
  have hd : |r - f32 x| = |f32 x - r| := abs_sub_comm _ _
  rw [hd] at hk
  have hpos : 0 < |f32 x - r| := abs_pos.2 (sub_ne_zero.2 (Ne.symm hne))
  have e : f32 x - r = 2 * (j - k) * |f32 x - r| := by
    rw [sub_eq_iff_eq_add]; linarith
  rcases abs_choice (f32 x - r) with hc | hc
  · rw [hc] at e hpos
    have : (1 : ℚ) = 2 * (j - k) := by
      have := mul_right_cancel₀ hpos.ne' ((one_mul (f32 x - r)).trans e)
      exact this
    have : (1 : Int) = 2 * (j - k) := by exact_mod_cast this
    omega
  · rw [hc] at e hpos
    have : (-1 : ℚ) = 2 * (j - k) := by
      have e' : -1 * -(f32 x - r) = 2 * (j - k) * -(f32 x - r) := by linarith
      exact mul_right_cancel₀ hpos.ne' e'
    have : (-1 : Int) = 2 * (j - k) := by exact_mod_cast this
    omega

end Verif.CoinSelect
