import Verif.Props.Bnb

/-!
# C66: fees in single precision

Feerates are `f32`, and the fee for a weight is their product in `f32` arithmetic, rounded up to whole satoshis.
-/

namespace Verif.CoinSelect
open Selector

/-- **C66** the rounding of the model is the one IEEE 754 prescribes, which is unique: nearest, ties to even, 24 bits of significand,
least exponent -149. -/
theorem C66_rounding (x r : ℚ) : Spec.IsRounded x r ↔ r = f32 x :=
  ⟨isRounded_unique, fun h => h ▸ f32_isRounded x⟩

/-- **C66** everyday sizes (weight and fee up to 2^24): the fee due is never above the exact product rounded up, and never more than
one satoshi below it. -/
theorem C66_fee_exact_range (w : Nat) (rate : ℚ) (hw : w ≤ 2 ^ 24) (hf : w * rate ≤ 2 ^ 24) :
    Spec.minFee w rate ≤ ⌈(w : ℚ) * rate⌉₊ ∧ ⌈(w : ℚ) * rate⌉₊ ≤ Spec.minFee w rate + 1 :=
  ⟨minFee_le_ceil hw hf, Nat.ceil_le.2 (by push_cast; exact (lt_minFee hw hf).le)⟩

/-- **C66** all sizes: the fee due is the exact product to within one part in 2^23 below, and one part in 2^22 and a satoshi above. -/
theorem C66_fee_relative (w : Nat) (rate : ℚ) (h0 : 0 ≤ rate) (hr : Spec.IsF32 rate) :
    w * rate * (1 - 1 / 2 ^ 23) ≤ Spec.minFee w rate ∧ (Spec.minFee w rate : ℚ) < w * rate * (1 + 1 / 2 ^ 22) + 1 := by
  refine ⟨minFee_relative hr, ?_⟩
  by_cases hw0 : w = 0
  · subst hw0; unfold Spec.minFee; rw [product_zero]; simp
  rcases h0.eq_or_lt with he | hp
  · rw [← he, minFee_neg w (le_refl _)]; simp
  have hw : (1 : ℚ) ≤ w := by exact_mod_cast Nat.pos_of_ne_zero hw0
  have h126 : (2 : ℚ) ^ (-126 : Int) ≤ 1 := by
    rw [show (1 : ℚ) = 2 ^ (0 : Int) by simp]; exact zpow_le_zpow_right₀ (by norm_num) (by norm_num)
  have hfw : f32 (w : ℚ) ≤ w * (1 + 1 / 2 ^ 24) := by
    have := f32_rel (x := (w : ℚ)) (by rw [abs_of_pos (by linarith)]; linarith)
    rw [abs_of_pos (by linarith : (0 : ℚ) < w)] at this
    have := (abs_le.1 this).1
    linarith
  have hfw0 : 0 ≤ f32 (w : ℚ) := f32_nonneg (by linarith)
  have hwr : 0 < (w : ℚ) * rate := by positivity
  have hlt := Nat.ceil_lt_add_one (product_nonneg w h0)
  change (Spec.minFee w rate : ℚ) < _ at hlt
  have hpr : Spec.product w rate = f32 (f32 (w : ℚ) * rate) := rfl
  have hx0 : 0 ≤ f32 (w : ℚ) * rate := mul_nonneg hfw0 h0
  have hxw : f32 (w : ℚ) * rate ≤ w * rate * (1 + 1 / 2 ^ 24) := by nlinarith
  rcases le_or_gt ((2 : ℚ) ^ (-126 : Int)) (f32 (w : ℚ) * rate) with hb | hb
  · have := f32_rel (x := f32 (w : ℚ) * rate) (by rwa [abs_of_nonneg hx0])
    rw [abs_of_nonneg hx0] at this
    have h2 := (abs_le.1 this).1
    rw [hpr] at hlt
    nlinarith
  · have h1 := f32_mono hb.le
    rw [f32_of_isF32 (isF32_pow (by norm_num))] at h1
    have h2 : Spec.minFee w rate ≤ 1 := Nat.ceil_le.2 (by rw [hpr]; push_cast; linarith)
    have h3 : (Spec.minFee w rate : ℚ) ≤ 1 := by exact_mod_cast h2
    nlinarith

/-- **C66** a rate `k / 2 ^ j` (one satoshi per virtual byte is 1/4) is paid exactly: the least whole number of satoshis that reaches
it, as long as the weight and `k` times the weight are at most 2^24. -/
theorem C66_fee_exact (w k j : Nat) (hj : j ≤ 149) (hw : w ≤ 2 ^ 24) (hk : w * k ≤ 2 ^ 24) :
    IsLeast {fee : Nat | (w : ℚ) * (k / 2 ^ j) ≤ fee} (Spec.minFee w (k / 2 ^ j)) := by
  rw [minFee_exact (product_dyadic rfl hj hw hk)]
  refine ⟨?_, fun n hn => Nat.ceil_le.2 hn⟩
  rw [Set.mem_setOf_eq]; exact Nat.le_ceil _

/-- **C66** the fee due does not fall when the weight grows, nor when the rate does. -/
theorem C66_fee_mono (w w' : Nat) (rate rate' : ℚ) (h0 : 0 ≤ rate) (hw : w ≤ w') (hr : rate ≤ rate') :
    Spec.minFee w rate ≤ Spec.minFee w' rate' := by
  refine le_trans (minFee_mono h0 hw) (Nat.ceil_le_ceil ?_)
  unfold Spec.product
  exact f32_mono (mul_le_mul_of_nonneg_left hr (f32_nonneg (Nat.cast_nonneg _)))

/-- **C66** what a selection with a change output pays, everyday sizes: the absolute minimum fee or, if that is more, the exact fee at
the target rate rounded up, or one satoshi less. -/
theorem C66_drain_fee (s : Selector) (sel : Selection) (h : s.finish = some (.ok sel)) (st : Strat) (hst : (.toDrain, st) ∈ sel.strategies)
    (hw : st.weight ≤ 2 ^ 24) (hf : st.weight * s.opts.targetFeerate ≤ 2 ^ 24) :
    st.fee ≤ max ⌈(st.weight : ℚ) * s.opts.targetFeerate⌉₊ s.opts.minAbsoluteFee ∧
    max ⌈(st.weight : ℚ) * s.opts.targetFeerate⌉₊ s.opts.minAbsoluteFee ≤ st.fee + 1 := by
  obtain ⟨-, h2, h3⟩ := (C45_split s sel h st).2.2 hst
  have hweq := ((C45_sound s sel h).2 _ hst).weight_eq
  simp only [h2, if_true] at hweq
  obtain ⟨e1, e2⟩ := C66_fee_exact_range _ _ hw hf
  unfold Spec.drainFee at h3
  rw [← hweq] at h3
  omega

/-- **C66** the reported feerate, everyday sizes (weight and fee up to 2^24): the quotient of fee and weight, rounded to `f32`; so it
is at least the target rate whenever the fee pays it in full. -/
theorem C66_reported_rate (st : Strat) (hw0 : 0 < st.weight) (hw : st.weight ≤ 2 ^ 24) (hf : st.fee ≤ 2 ^ 24) :
    ∃ r, st.feerate = some r ∧ Spec.IsRounded ((st.fee : ℚ) / st.weight) r ∧
      ∀ rate, Spec.IsF32 rate → (st.weight : ℚ) * rate ≤ st.fee → rate ≤ r := by
  have hwq : (0 : ℚ) < st.weight := by exact_mod_cast hw0
  refine ⟨f32 ((st.fee : ℚ) / st.weight), ?_, f32_isRounded _, ?_⟩
  · unfold Strat.feerate
    rw [if_neg (by omega), f32_natCast hw, f32_natCast hf]
  · intro rate hr hle
    have : rate ≤ (st.fee : ℚ) / st.weight := by rw [le_div_iff₀ hwq]; linarith
    have := f32_mono this
    rwa [f32_of_isF32 hr] at this

/-! ### findings -/

/-- 0.27 satoshi per weight unit (1.08 per virtual byte) as an `f32` -/
def rate27 : ℚ := 9059697 / 33554432

/-- one coin, paying 5000 at that rate -/
def exUnder : Selector :=
  ⟨{ targetValue := some 5000, maxExtraTarget := 0, targetFeerate := rate27, longTermFeerate := none, minAbsoluteFee := 0,
     baseWeight := 500, drainWeight := 100, spendDrainWeight := 200, minDrainValue := 500 }, [⟨8000, 400, 1, false⟩], {0}⟩

theorem rate27_is : Spec.IsRounded (27 / 100) rate27 := by
  rw [C66_rounding]; decide +kernel

/-- **C66, finding** the target rate can be missed: at 0.27 satoshi per weight unit a transaction of weight 1000 pays 270 satoshis,
although the `f32` nearest to 0.27 is a little more than 0.27, so that the exact fee is more than 270. -/
theorem C66_underpays : ∃ sel st, exUnder.finish = some (.ok sel) ∧ (Kind.toDrain, st) ∈ sel.strategies ∧ st.weight = 1000 ∧
    st.fee = 270 ∧ (st.fee : ℚ) < st.weight * exUnder.opts.targetFeerate := by
  have h1 : exUnder.finish = some (.ok ⟨{0}, 2756,
      [(.toFee, ⟨some 5000, none, 3000, 900, 2756⟩), (.toDrain, ⟨some 5000, some 2730, 270, 1000, 81⟩)]⟩) := by decide +kernel
  exact ⟨_, _, h1, .tail _ (.head _), rfl, rfl, by decide +kernel⟩

/-- 12.1 satoshis per weight unit (48.4 per virtual byte) as an `f32` -/
def rate121 : ℚ := 6343885 / 524288

theorem rate121_is : Spec.IsRounded (121 / 10) rate121 := by
  rw [C66_rounding]; decide +kernel

/-- five coins, which together have exactly the effective value that is needed to pay 10000 -/
def exShort : Selector :=
  Selector.new [⟨5000, 230, 1, true⟩, ⟨5000, 230, 1, true⟩, ⟨5000, 230, 1, true⟩, ⟨5000, 230, 1, true⟩, ⟨5972, 230, 1, true⟩]
    { targetValue := some 10000, maxExtraTarget := 0, targetFeerate := rate121, longTermFeerate := none, minAbsoluteFee := 0,
      baseWeight := 168, drainWeight := 172, spendDrainWeight := 230, minDrainValue := 300 }

/-- **C66, finding** branch and bound can return a selection that `finish` then refuses for want of one satoshi: the fees of the parts
are rounded one by one. -/
theorem C66_bnb_one_short : ∃ s', coinSelectBnb (exSort rate121) 64 exShort = some (some s') ∧ s'.selected = {0, 1, 2, 3, 4} ∧
    s'.finish = some (.error ⟨25972, 1, .targetFee⟩) := by
  have h1 : (match coinSelectBnb (exSort rate121) 64 exShort with
      | some (some s') => decide (s'.selected = {0, 1, 2, 3, 4} ∧ s'.finish = some (.error ⟨25972, 1, .targetFee⟩))
      | _ => false) = true := by decide +kernel
  cases h : coinSelectBnb (exSort rate121) 64 exShort with
  | none => rw [h] at h1; cases h1
  | some o =>
    cases o with
    | none => rw [h] at h1; cases h1
    | some s' =>
      rw [h] at h1
      exact ⟨s', rfl, (of_decide_eq_true h1).1, (of_decide_eq_true h1).2⟩

/-- the hypotheses of `C47_finishes` are met there -/
example : Spec.IsF32 exShort.opts.targetFeerate ∧
    Spec.weight exShort.opts exShort.candidates (Finset.range exShort.candidates.length) ≤ 2 ^ 24 ∧
    (Spec.weight exShort.opts exShort.candidates (Finset.range exShort.candidates.length) : ℚ) * exShort.opts.targetFeerate ≤ 2 ^ 24 :=
  ⟨rate121_is.1, by decide +kernel, by decide +kernel⟩

/-- a non-trivial case of `C66_fee_exact_range` and `C66_fee_relative`, one satoshi apart -/
example : Spec.IsF32 rate27 ∧ Spec.minFee 1000 rate27 = 270 ∧ ⌈((1000 : Nat) : ℚ) * rate27⌉₊ = 271 := by
  refine ⟨rate27_is.1, by decide +kernel, by decide +kernel⟩

/-- and of `C66_reported_rate` -/
example : (⟨some 5000, some 2730, 270, 1000, 81⟩ : Strat).feerate = some (9059697 / 33554432) := by decide +kernel

end Verif.CoinSelect
