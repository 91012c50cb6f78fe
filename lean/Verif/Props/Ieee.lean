import Verif.Spec.Ieee
import Verif.Spec.MachineSelect
import Verif.Lemmas.IeeeRelease
import Verif.Props.MachineSelect
import Verif.Props.Fee

/-!
# C76: coin selection at every `f32` rate
-/

namespace Verif.CoinSelect
open Verif Verif.CoinSelect.Machine

/-! ### The arithmetic -/

/-- the greatest finite `f32` -/
theorem isF32_greatest : Spec.IsF32 ((2 : ℚ) ^ 128 - 2 ^ 104) := ⟨2 ^ 24 - 1, 104, by norm_num, by norm_num, by norm_num⟩

theorem f32_big_iff (x : ℚ) : (2 : ℚ) ^ 128 ≤ f32 x ↔ (2 : ℚ) ^ 128 - 2 ^ 103 ≤ x := by
  constructor
  · intro h
    by_contra hx
    rw [not_le] at hx
    have hM : f32 ((2 : ℚ) ^ 128 - 2 ^ 104) = 2 ^ 128 - 2 ^ 104 := f32_of_isF32 isF32_greatest
    rcases le_total x ((2 : ℚ) ^ 128 - 2 ^ 104) with hle | hge
    · have := f32_mono hle
      rw [hM] at this
      have : (0 : ℚ) < 2 ^ 104 := by norm_num
      linarith
    · have h1 := ((f32_isRounded x).2 _ isF32_greatest).1
      rw [abs_of_nonneg (by linarith : (0 : ℚ) ≤ x - (2 ^ 128 - 2 ^ 104)), abs_sub_comm,
        abs_of_nonneg (by have : (0 : ℚ) < 2 ^ 103 := by norm_num
                          linarith)] at h1
      have : (2 : ℚ) ^ 104 = 2 * 2 ^ 103 := by norm_num
      linarith
  · intro h
    have h1 : f32 ((2 : ℚ) ^ 128 - 2 ^ 103) = 2 ^ 128 := by decide +kernel
    rw [← h1]
    exact f32_mono h

/-- **C76** the exact result of an operation is rounded to an infinity exactly if it is at least 2^128 - 2^103 in magnitude (IEEE 754:
half a unit in the last place above the greatest number), and otherwise to the nearest `f32`, the even one of two -/
theorem C76_rounding (x : ℚ) :
    (F32.round x = .inf false ↔ (2 : ℚ) ^ 128 - 2 ^ 103 ≤ x) ∧ (F32.round x = .inf true ↔ x ≤ -((2 : ℚ) ^ 128 - 2 ^ 103)) ∧
    ∀ q, F32.round x = .fin q ↔ |x| < 2 ^ 128 - 2 ^ 103 ∧ Spec.IsRounded x q := by
  have hp := f32_big_iff x
  have hn := f32_big_iff (-x)
  rw [f32_neg] at hn
  have hn : f32 x ≤ -(2 : ℚ) ^ 128 ↔ x ≤ -((2 : ℚ) ^ 128 - 2 ^ 103) :=
    ⟨fun h => by have := hn.1 (by linarith); linarith, fun h => by have := hn.2 (by linarith); linarith⟩
  have h0 : (0 : ℚ) < 2 ^ 128 - 2 ^ 103 := by norm_num
  unfold F32.round
  by_cases h1 : (2 : ℚ) ^ 128 ≤ f32 x
  · have h1' := hp.1 h1
    rw [if_pos h1]
    refine ⟨⟨fun _ => h1', fun _ => rfl⟩, ⟨fun h => (by cases h), fun h => (by linarith)⟩, fun q => ⟨fun h => (by cases h), fun h => ?_⟩⟩
    have := (abs_lt.1 h.1).2
    linarith
  · have h1' := fun h => h1 (hp.2 h)
    rw [if_neg h1]
    by_cases h2 : f32 x ≤ -(2 : ℚ) ^ 128
    · have h2' := hn.1 h2
      rw [if_pos h2]
      refine ⟨⟨fun h => (by cases h), fun h => absurd h h1'⟩, ⟨fun _ => h2', fun _ => rfl⟩, fun q => ⟨fun h => (by cases h), fun h => ?_⟩⟩
      have := (abs_lt.1 h.1).1
      linarith
    · have h2' := fun h => h2 (hn.2 h)
      rw [if_neg h2]
      refine ⟨⟨fun h => (by cases h), fun h => absurd h h1'⟩, ⟨fun h => (by cases h), fun h => absurd h h2'⟩, fun q => ⟨fun h => ?_, fun h => ?_⟩⟩
      · cases h
        refine ⟨abs_lt.2 ⟨?_, ?_⟩, f32_isRounded x⟩
        · by_contra hc; exact h2' (by linarith)
        · by_contra hc; exact h1' (by linarith)
      · rw [isRounded_unique h.2]

/-- **C76** at every rate the fee asked for a weight is the specified one -/
theorem charge_eq (o : Ieee.Opt) (w : Nat) : o.rates.feeU w = Spec.charge o.targetFeerate w := by
  show (F32.ceil (F32.mul (F32.ofNat w) o.targetFeerate)).toU64 = _
  cases o.targetFeerate with
  | nan => rfl
  | fin q =>
    show (F32.ceil (F32.round (f32 w * q))).toU64 = min ⌈f32 (f32 w * q)⌉.toNat (2 ^ 64 - 1)
    rw [F32.toU64_ceil_round]
    unfold satU
    generalize ⌈f32 (f32 w * q)⌉ = z
    omega
  | inf n =>
    show (F32.ceil (if f32 (w : ℚ) = 0 then F32.nan else .inf (n != decide (f32 (w : ℚ) < 0)))).toU64 = _
    have h0 := F32.f32_nat_nonneg w
    rw [show decide (f32 (w : ℚ) < 0) = false from decide_eq_false (by linarith)]
    rcases Nat.eq_zero_or_pos w with rfl | hw
    · rw [if_pos (by rw [Nat.cast_zero, f32_zero])]
      cases n <;> rfl
    · rw [if_neg (by have := F32.f32_nat_pos hw; linarith)]
      cases n
      · show _ = if w = 0 then 0 else 2 ^ 64 - 1
        rw [if_neg (by omega)]; rfl
      · rfl

/-! ### Finite rates -/

theorem withF32_plain (s : Selector) : (Spec.withF32 s).plain = s := by
  obtain ⟨⟨tv, mx, t, l, mf, bw, dw, sw, md⟩, cs, sel⟩ := s
  cases l <;> rfl

theorem withF32_rates (s : Selector) (ht : 0 ≤ s.opts.targetFeerate) (hl : ∀ l, s.opts.longTermFeerate = some l → 0 ≤ l) :
    (Spec.withF32 s).opts.rates = Ieee.exactRates s.opts := by
  have hlong : (Spec.withF32 s).opts.longTerm = .fin s.opts.longTerm := by
    show (s.opts.longTermFeerate.map F32.fin).getD (.fin s.opts.targetFeerate) = .fin (s.opts.longTerm)
    unfold CoinSelect.Opt.longTerm
    cases s.opts.longTermFeerate <;> rfl
  have hl0 : 0 ≤ s.opts.longTerm := by
    unfold CoinSelect.Opt.longTerm
    cases h : s.opts.longTermFeerate with
    | none => exact ht
    | some l => exact hl l h
  have e1 : ∀ w : Nat, F32.mul (F32.ofNat w) (.fin s.opts.targetFeerate) = F32.round (f32 w * s.opts.targetFeerate) := fun w => rfl
  have e2 : ∀ w : Nat, F32.mul (F32.ofNat w) (.fin s.opts.longTerm) = F32.round (f32 w * s.opts.longTerm) := fun w => rfl
  have ht' : (Spec.withF32 s).opts.targetFeerate = .fin s.opts.targetFeerate := rfl
  have n1 : ∀ w : Nat, 0 ≤ f32 w * s.opts.targetFeerate := fun w => mul_nonneg (F32.f32_nat_nonneg w) ht
  have n2 : ∀ w : Nat, 0 ≤ f32 w * s.opts.longTerm := fun w => mul_nonneg (F32.f32_nat_nonneg w) hl0
  unfold Ieee.Opt.rates Ieee.exactRates
  rw [hlong, ht']
  simp only [e1, e2]
  congr 1
  · funext w; exact F32.toU64_ceil_round _
  · funext w; exact F32.toI64_ceil_round _
  · exact F32.toU64_round _
  · exact F32.toI64_add_round (n1 _) (n2 _)
  · funext w
    show F32.toI64 (F32.mul (F32.ofNat w) (F32.round (s.opts.targetFeerate + -s.opts.longTerm))) = _
    rw [F32.toI64_waste, ← sub_eq_add_neg]

/-- **C76** at finite rates that are not negative, infinite intermediate results make no difference: what C68 says of rational
arithmetic holds of `f32` with its infinities, in either build and at every size -/
theorem C76_finite (b : Build) (s : Selector) (ht : 0 ≤ s.opts.targetFeerate)
    (hl : ∀ l, s.opts.longTermFeerate = some l → 0 ≤ l) :
    Ieee.finish b (Spec.withF32 s) = Machine.finish b s ∧
    Ieee.selectUntilFinished b (Spec.withF32 s) =
      (Machine.selectUntilFinished b s).map (fun x => (x.1, x.2.selected)) ∧
    (∀ sort rounds, Ieee.coinSelectBnb b sort rounds (Spec.withF32 s) =
      (Machine.coinSelectBnb b sort rounds s).map (fun x => x.map fun x => x.selected)) ∧
    Ieee.waste b (Spec.withF32 s) = Machine.selectedWaste b s := by
  have hr := withF32_rates s ht hl
  refine ⟨?_, ?_, fun sort rounds => ?_, ?_⟩
  · unfold Ieee.finish
    rw [hr, withF32_plain, Ieee.finish_exact]
  · unfold Ieee.selectUntilFinished
    rw [hr, withF32_plain, Ieee.until_exact]
  · unfold Ieee.coinSelectBnb
    rw [hr, withF32_plain, Ieee.bnb_exact]
  · unfold Ieee.waste
    rw [hr, withF32_plain, Ieee.selectedWaste_exact]

/-- **C76** so within the bounds of C68 `f32` arithmetic with infinities gives, in either build, what C45 to C48 say -/
theorem C76_fits (b : Build) (s : Selector) (hf : Spec.Fits s.opts s.candidates)
    (hin : s.selected ⊆ Finset.range s.candidates.length) :
    (∀ r, s.finish = some r → Ieee.finish b (Spec.withF32 s) = some r) ∧
    (∀ r, s.selectUntilFinished = some r → Ieee.selectUntilFinished b (Spec.withF32 s) = some (r.1, r.2.selected)) ∧
    ∀ sort, ValidSort s.opts.targetFeerate sort → ∀ rounds, Ieee.coinSelectBnb b sort rounds (Spec.withF32 s) =
      (coinSelectBnb sort rounds s).map (fun x => x.map fun x => x.selected) := by
  have hl : ∀ l, s.opts.longTermFeerate = some l → 0 ≤ l := by
    intro l h
    have := hf.later.1
    unfold Spec.laterRate at this
    rw [h] at this
    exact this
  obtain ⟨h1, h2, h3, -⟩ := C76_finite b s hf.rate.1 hl
  refine ⟨fun r h => ?_, fun r h => ?_, fun sort hs rounds => ?_⟩
  · rw [h1]; exact (C68_finish s hf hin).1 b r h
  · rw [h2, (C68_until s hf hin).1 b r h]; rfl
  · rw [h3, C68_bnb b s hf hin sort hs rounds]

/-! ### Every rate, debug build -/

theorem sound_right {s : Ieee.Sel} {x : Strat} (h : Ieee.Sound s.opts.rates s.plain x) : Spec.Right s x :=
  ⟨h.conserved.symm, h.minFee, by rw [← charge_eq]; exact h.fee, h.weight, h.recipient, h.noRecipient, h.drain⟩

/-- **C76** in a debug build a selection is right whatever the rates (infinite, negative, NaN) and the sizes: there is a way to use
the excess, and every one of them balances, pays what the rate asks for its weight, and respects the least fee, the recipient and the
least change -/
theorem C76_debug_ok (s : Ieee.Sel) (hin : s.selected ⊆ Finset.range s.candidates.length) (sel : Selection)
    (h : Ieee.finish .debug s = some (.ok sel)) :
    sel.selected = s.selected ∧ sel.strategies ≠ [] ∧
    Spec.coinsValue s = s.opts.targetValue.getD 0 +
      max (Spec.charge s.opts.targetFeerate (Spec.txWeight s)) s.opts.minAbsoluteFee + sel.excess ∧
    ∀ k x, (k, x) ∈ sel.strategies → Spec.Right s x := by
  obtain ⟨h1, h2, -, h4, h5⟩ := Ieee.finish_debug_ok (s := s.plain) hin h
  refine ⟨h1, h2, ?_, fun k x hx => sound_right (h5 k x hx)⟩
  rw [charge_eq] at h4
  exact h4

/-- **C76** and an error says how much the coins are short of which demand -/
theorem C76_debug_error (s : Ieee.Sel) (hin : s.selected ⊆ Finset.range s.candidates.length) (e : SelErr)
    (h : Ieee.finish .debug s = some (.error e)) :
    e.selected = Spec.coinsValue s ∧ 0 < e.missing ∧ match e.constraint with
      | .targetValue => s.opts.targetValue.getD 0 = Spec.coinsValue s + e.missing
      | .targetFee => s.opts.targetValue.getD 0 + Spec.charge s.opts.targetFeerate (Spec.txWeight s) = Spec.coinsValue s + e.missing
      | .minAbsoluteFee => s.opts.targetValue.getD 0 + s.opts.minAbsoluteFee = Spec.coinsValue s + e.missing
      | .minDrainValue => s.opts.targetValue = none ∧
          Spec.charge s.opts.targetFeerate (Spec.txWeight s + s.opts.drainWeight) + s.opts.minDrainValue =
            Spec.coinsValue s + e.missing := by
  have := Ieee.finish_debug_error (s := s.plain) hin h
  rw [charge_eq, charge_eq] at this
  exact this

/-! ### NaN -/

theorem nan_rates (s : Ieee.Sel) (h : s.opts.targetFeerate = .nan) : s.opts.rates = Ieee.exactRates s.opts.plain ∧
    s.plain = (s.atRate (.fin 0)).plain := by
  have hm : ∀ w : Nat, F32.mul (F32.ofNat w) .nan = .nan := fun w => rfl
  have hp : s.opts.plain.targetFeerate = 0 := by unfold Ieee.Opt.plain; rw [h]
  have hl : s.opts.plain.longTermFeerate = none := by unfold Ieee.Opt.plain; rw [h]
  have hl' : s.opts.plain.longTerm = 0 := by unfold CoinSelect.Opt.longTerm; rw [hl, hp]; rfl
  have hz : ∀ w : Nat, mulF w 0 = 0 := fun w => by unfold mulF; rw [mul_zero, f32_zero]
  refine ⟨?_, ?_⟩
  · unfold Ieee.Opt.rates Ieee.exactRates
    rw [h, hp, hl']
    simp only [hm]
    congr 1
    · funext w; unfold Machine.feeU; rw [hz, Int.ceil_zero]; rfl
    · funext w; unfold Machine.feeI; rw [hz, Int.ceil_zero]; rfl
    · rw [hz, Int.floor_zero]; rfl
    · unfold Machine.drainWaste; rw [hl', hp, hz, hz, add_zero, f32_zero]; rfl
    · funext w; rw [sub_zero, f32_zero, hz]; rfl
  · unfold Ieee.Sel.plain Ieee.Sel.atRate Ieee.Opt.plain
    simp only [h]

/-- **C76 (finding)** a target rate that is NaN is not refused: every call answers as for a rate of 0, so the transaction pays no more
than `min_absolute_fee` asks, and the long-term rate is ignored -/
theorem C76_nan (b : Build) (s : Ieee.Sel) (h : s.opts.targetFeerate = .nan) :
    Ieee.finish b s = Ieee.finish b (s.atRate (.fin 0)) ∧
    Ieee.selectUntilFinished b s = Ieee.selectUntilFinished b (s.atRate (.fin 0)) ∧
    (∀ sort rounds, Ieee.coinSelectBnb b sort rounds s = Ieee.coinSelectBnb b sort rounds (s.atRate (.fin 0))) ∧
    Ieee.waste b s = Ieee.waste b (s.atRate (.fin 0)) := by
  obtain ⟨h1, h2⟩ := nan_rates s h
  have h3 : (s.atRate (.fin 0)).opts.rates = Ieee.exactRates s.opts.plain := by
    have hw : s.atRate (.fin 0) = Spec.withF32 s.plain := by
      rw [h2]; rfl
    rw [hw]
    refine (withF32_rates s.plain ?_ ?_).trans rfl
    · rw [h2]; exact le_refl (0 : ℚ)
    · rw [h2]; intro l hl; cases hl
  unfold Ieee.finish Ieee.selectUntilFinished Ieee.coinSelectBnb Ieee.waste
  rw [h1, h3, ← h2]
  exact ⟨rfl, rfl, fun _ _ => rfl, rfl⟩

/-! ### Infinite rates -/

/-- **C76** a debug build succeeds at an infinite rate only if nothing is sent and the coins are worth all a `u64` holds -/
theorem C76_infinite_debug (s : Ieee.Sel) (hin : s.selected ⊆ Finset.range s.candidates.length)
    (hr : s.opts.targetFeerate = .inf false) (hw : 0 < Spec.txWeight s) (sel : Selection)
    (h : Ieee.finish .debug s = some (.ok sel)) :
    s.opts.targetValue.getD 0 = 0 ∧ Spec.coinsValue s = 2 ^ 64 - 1 := by
  obtain ⟨-, -, h3, -, -⟩ := Ieee.finish_debug_ok (s := s.plain) hin h
  obtain ⟨-, -, h4, -⟩ := C76_debug_ok s hin sel h
  have h3 : Spec.coinsValue s < 2 ^ 64 := h3
  rw [hr, show Spec.charge (.inf false) (Spec.txWeight s) = 2 ^ 64 - 1 from if_neg (by omega)] at h4
  omega

/-- **C76 (finding)** a release build accepts at an infinite rate whatever coins would do if there were no fees at all: the demand
of all a `u64` holds wraps around in the sum with the value to be sent, and the result says that the coins' value less the recipient's is the fee,
far from what the rate asks, with an excess that is one satoshi more than that fee -/
theorem C76_infinite_release (s : Ieee.Sel) (hin : s.selected ⊆ Finset.range s.candidates.length)
    (hr : s.opts.targetFeerate = .inf false) (hw : 0 < Spec.txWeight s) (hm : s.opts.minAbsoluteFee < 2 ^ 64) (v : Nat)
    (ht : s.opts.targetValue = some v) (hv : 1 ≤ v)
    (h0 : ∃ sel, Ieee.finish .debug (s.atRate (.fin 0)) = some (.ok sel)) :
    Spec.charge (.inf false) (Spec.txWeight s) = 2 ^ 64 - 1 ∧
    ∃ sel x, Ieee.finish .release s = some (.ok sel) ∧ (Kind.toFee, x) ∈ sel.strategies ∧
      x.recipientValue = some v ∧ x.drainValue = none ∧ x.fee = Spec.coinsValue s - v ∧ x.weight = Spec.txWeight s ∧
      sel.excess = x.fee + 1 := by
  obtain ⟨sel0, h0⟩ := h0
  have hc : Spec.charge (.inf false) (Spec.txWeight s) = 2 ^ 64 - 1 := if_neg (by omega)
  have hs : Ieee.SameButRates s.plain (s.atRate (.fin 0)).plain := ⟨rfl, rfl, rfl, rfl, rfl, rfl, rfl, rfl⟩
  have hfee : s.opts.rates.feeU s.plain.currentWeight = 2 ^ 64 - 1 := by
    rw [charge_eq, hr]
    exact hc
  obtain ⟨sel, waste, h1, h2, h3⟩ := Ieee.finish_release_max hs hin ht hv hm h0 hfee
  exact ⟨hc, sel, _, h1, h3, rfl, rfl, rfl, rfl, h2⟩

/-- **C76 (finding)** the waste at an infinite rate: it counts as 0 when the long-term rate is the same infinity (as it is when none is
given), and otherwise is the largest (smallest) `i64` as soon as something is selected, unless the long-term rate is NaN -/
theorem C76_waste_infinite (b : Build) (s : Ieee.Sel) (n : Bool) (h : s.opts.targetFeerate = .inf n) (w : Nat)
    (hw : Machine.selectedWeight b s.plain = some w) :
    (s.opts.longTermFeerate = none ∨ s.opts.longTermFeerate = some (.inf n) → Ieee.waste b s = some 0) ∧
    (∀ x, s.opts.longTermFeerate = some x → x ≠ .inf n → x ≠ .nan → 0 < w →
      Ieee.waste b s = some (if n then -2 ^ 63 else 2 ^ 63 - 1)) := by
  have hpos : ∀ w : Nat, 0 < w → f32 (w : ℚ) ≠ 0 ∧ ¬ f32 (w : ℚ) < 0 := fun w hw => by
    have := F32.f32_nat_pos hw
    constructor
    · intro e; rw [e] at this; exact absurd this (by norm_num)
    · intro e; linarith
  have hww : Ieee.waste b s = some ((F32.mul (F32.ofNat w) (F32.sub s.opts.targetFeerate s.opts.longTerm)).toI64) := by
    unfold Ieee.waste Ieee.selectedWaste; rw [hw]; rfl
  rw [hww]
  constructor
  · intro hl
    have e : s.opts.longTerm = .inf n := by
      unfold Ieee.Opt.longTerm
      rcases hl with hl | hl <;> rw [hl]
      · exact h
      · rfl
    rw [h, e]
    refine congrArg some ?_
    have : F32.sub (.inf n) (.inf n) = .nan := by cases n <;> rfl
    rw [this]; rfl
  · intro x hx hne hnn hwp
    have e : s.opts.longTerm = x := by unfold Ieee.Opt.longTerm; rw [hx]; rfl
    rw [h, e]
    refine congrArg some ?_
    have e1 : F32.sub (.inf n) x = .inf n := by
      cases x with
      | fin q => rfl
      | nan => exact absurd rfl hnn
      | inf m =>
        cases n <;> cases m <;> first | rfl | exact absurd rfl hne
    rw [e1]
    have e2 : F32.mul (F32.ofNat w) (.inf n) = .inf n := by
      obtain ⟨h1, h2⟩ := hpos w hwp
      show (if f32 (w : ℚ) = 0 then F32.nan else .inf (n != decide (f32 (w : ℚ) < 0))) = _
      rw [if_neg h1, decide_eq_false h2]
      cases n <;> rfl
    rw [e2]; rfl

/-- **C76 (finding)** a rate below zero, minus infinity included, asks for nothing: the selection is accepted, in a debug build, on
`min_absolute_fee` alone -/
theorem C76_negative (s : Ieee.Sel) (hin : s.selected ⊆ Finset.range s.candidates.length)
    (hr : F32.gt (.fin 0) s.opts.targetFeerate = true) :
    (∀ w, Spec.charge s.opts.targetFeerate w = 0) ∧
    ∀ sel, Ieee.finish .debug s = some (.ok sel) →
      Spec.coinsValue s = s.opts.targetValue.getD 0 + s.opts.minAbsoluteFee + sel.excess := by
  have h0 : ∀ w, Spec.charge s.opts.targetFeerate w = 0 := by
    intro w
    cases ht : s.opts.targetFeerate with
    | nan => rfl
    | inf n =>
      rw [ht] at hr
      cases n with
      | true => rfl
      | false => cases hr
    | fin q =>
      rw [ht] at hr
      have hq : q < 0 := of_decide_eq_true hr
      have h1 : f32 (f32 w * q) ≤ 0 := by
        have := f32_mono (mul_nonpos_of_nonneg_of_nonpos (F32.f32_nat_nonneg w) hq.le)
        rwa [f32_zero] at this
      have h2 : ⌈f32 (f32 w * q)⌉ ≤ 0 := Int.ceil_le.2 (by exact_mod_cast h1)
      show min ⌈f32 (f32 w * q)⌉.toNat (2 ^ 64 - 1) = 0
      rw [Int.toNat_of_nonpos h2]
      exact Nat.zero_min _
  refine ⟨h0, fun sel h => ?_⟩
  obtain ⟨-, -, h1, -⟩ := C76_debug_ok s hin sel h
  rw [h0, Nat.zero_max] at h1
  exact h1

/-! ### Concrete cases -/

/-- the selector of C45 at another rate -/
def exAny (rate : F32) (later : Option F32) : Ieee.Sel :=
  { Spec.withF32 (exSel (some 500) 0) with
    opts := { (Spec.withF32 (exSel (some 500) 0)).opts with targetFeerate := rate, longTermFeerate := later } }

/-- at an ordinary rate the three strategies of C45 -/
example : Ieee.finish .debug (exAny (.fin (1 / 4)) none) = some (.ok ⟨{0}, 624,
      [(.toFee, ⟨some 500, none, 700, 302, 624⟩), (.toRecipient, ⟨some 550, none, 650, 302, 574⟩),
       (.toDrain, ⟨some 500, some 599, 101, 402, 75⟩)]⟩) := by decide +kernel

/-- a rate that is NaN: nothing is asked -/
example : ∃ sel, Ieee.finish .debug (exAny .nan (some (.fin 3))) = some (.ok sel) ∧ sel.excess = 700 := by
  refine ⟨⟨{0}, 700, [(.toFee, ⟨some 500, none, 700, 302, 700⟩), (.toRecipient, ⟨some 550, none, 650, 302, 650⟩),
       (.toDrain, ⟨some 500, some 700, 0, 402, 0⟩)]⟩, ?_, rfl⟩
  decide +kernel

/-- the hypotheses of `C76_infinite_release` and `C76_infinite_debug` are met -/
example : 0 < Spec.txWeight (exAny (.inf false) none) ∧
    (∃ sel, Ieee.finish .debug ((exAny (.inf false) none).atRate (.fin 0)) = some (.ok sel)) ∧
    Ieee.finish .debug (exAny (.inf false) none) = none := by
  have h : Ieee.finish .debug ((exAny (.inf false) none).atRate (.fin 0)) = some (.ok ⟨{0}, 700,
      [(.toFee, ⟨some 500, none, 700, 302, 700⟩), (.toRecipient, ⟨some 550, none, 650, 302, 650⟩),
       (.toDrain, ⟨some 500, some 700, 0, 402, 0⟩)]⟩) := by decide +kernel
  exact ⟨by decide +kernel, ⟨_, h⟩, by decide +kernel⟩

/-- a coin worth all a `u64` holds, nothing sent: the one case in which an infinite rate is met -/
def exAll : Ieee.Sel :=
  { opts := { (exAny (.inf false) none).opts with targetValue := some 0, minDrainValue := 0 }, candidates := [⟨2 ^ 64 - 1, 200, 1, true⟩], selected := {0} }

example : ∃ sel, Ieee.finish .debug exAll = some (.ok sel) := by
  have h : (Ieee.finish .debug exAll).map (fun r => match r with | .ok _ => true | .error _ => false) = some true := by decide +kernel
  cases hm : Ieee.finish .debug exAll with
  | none => rw [hm] at h; cases h
  | some r =>
    cases r with
    | ok sel => exact ⟨sel, rfl⟩
    | error e => rw [hm] at h; cases h

/-- a rate that is finite but so high that the product is not: it is refused in a debug build, as an infinite one -/
example : Ieee.finish .debug (exAny (.fin (2 ^ 127)) none) = none ∧
    F32.mul (F32.ofNat 302) (.fin (2 ^ 127)) = .inf false := by
  exact ⟨by decide +kernel, by decide +kernel⟩

/-- a negative rate -/
example : F32.gt (.fin 0) (exAny (.fin (-2)) none).opts.targetFeerate = true ∧
    ∃ sel, Ieee.finish .debug (exAny (.inf true) none) = some (.ok sel) := by
  refine ⟨by decide +kernel, ?_⟩
  have h : (Ieee.finish .debug (exAny (.inf true) none)).map (fun r => match r with | .ok _ => true | .error _ => false) = some true := by
    decide +kernel
  cases hm : Ieee.finish .debug (exAny (.inf true) none) with
  | none => rw [hm] at h; cases h
  | some r =>
    cases r with
    | ok sel => exact ⟨sel, rfl⟩
    | error e => rw [hm] at h; cases h

/-- the waste at two infinite rates has no value and counts as 0 -/
example : Ieee.waste .debug (exAny (.inf false) none) = some 0 := by decide +kernel
/-- the hypotheses of `C76_waste_infinite` are met -/
example : (Machine.selectedWeight .debug (exAny (.inf false) (some (.fin 3))).plain).map (fun w => decide (0 < w)) = some true ∧
    Ieee.waste .debug (exAny (.inf false) (some (.fin 3))) = some (2 ^ 63 - 1) ∧
    Ieee.waste .release (exAny (.inf true) (some (.inf false))) = some (-2 ^ 63) := by decide +kernel

end Verif.CoinSelect
