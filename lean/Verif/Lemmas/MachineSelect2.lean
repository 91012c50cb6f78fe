import Verif.Lemmas.MachineSelect

/-! # `finish` and `select_until_finished` on machine integers -/

namespace Verif.CoinSelect.Machine
open Verif Verif.CoinSelect Verif.CoinSelect.Spec Verif.Build

section
variable {s : Selector} (b : Build) (hf : Fits s.opts s.candidates) (hin : s.InRange)
include hf

theorem target_le : s.opts.target + s.opts.minAbsoluteFee + s.opts.minDrainValue + s.opts.maxExtraTarget ≤ 2 ^ 60 := by
  have h := hf.amounts
  have h3 : s.opts.target = s.opts.targetValue.getD 0 := rfl
  omega

include hin in
theorem shortfalls_fits {f1 f2 : Nat} (h1 : f1 ≤ 2 ^ 55) (h2 : f2 ≤ 2 ^ 55) :
    shortfalls b s s.selectedAbs f1 f2 = some (s.shortfalls f1 f2) := by
  have h3 := target_le hf
  unfold shortfalls Selector.shortfalls
  rw [unsigned_add_fits b (by omega), unsigned_add_fits b (by omega), Option.bind_some, Option.bind_some]
  cases s.opts.targetValue.isNone with
  | true => rw [if_pos rfl, unsigned_add_fits b (by omega)]; rfl
  | false => rfl

theorem noDrain_fits {fee excess weight : Nat} {waste : Int} (h1 : fee ≤ 2 ^ 60) (h2 : excess ≤ 2 ^ 60) (h3 : |waste| ≤ 2 ^ 55) :
    noDrainStrategies b s fee excess weight waste = some (s.noDrainStrategies fee excess weight waste) := by
  have h4 := target_le hf
  have h5 := abs_le.1 h3
  unfold noDrainStrategies Selector.noDrainStrategies
  cases hv : s.opts.targetValue with
  | none => rfl
  | some v =>
    have hv2 : s.opts.target = v := by unfold Opt.target; rw [hv]; rfl
    simp only
    rw [unsigned_add_fits b (by omega), Option.bind_some, asI64_small (by omega), i64_fits b (by omega) (by omega), Option.bind_some]
    by_cases hc : 0 < excess ∧ 0 < s.opts.maxExtraTarget
    · rw [if_pos hc, if_pos hc]
      have hm := Nat.min_le_left s.opts.maxExtraTarget excess
      have hm' := Nat.min_le_right s.opts.maxExtraTarget excess
      generalize min s.opts.maxExtraTarget excess = extra at *
      rw [unsigned_fits b (by omega) (by push_cast; omega), Option.bind_some, show ((excess : Int) - extra).toNat = excess - extra by omega,
        unsigned_add_fits b (by omega), Option.bind_some, unsigned_add_fits b (by omega), Option.bind_some, asI64_small (by omega),
        i64_fits b (by omega) (by omega), Option.map_some]
    · rw [if_neg hc, if_neg hc]

theorem drain_fits {fee imo weight : Nat} {waste : Int} (h1 : fee ≤ 2 ^ 60) (h3 : |waste| ≤ 2 ^ 55) :
    drainStrategies b s fee imo weight waste = some (s.drainStrategies fee imo weight waste) := by
  have h4 := target_le hf
  have h5 := abs_le.1 h3
  have h6 := abs_le.1 (drainWaste_bound hf)
  unfold drainStrategies Selector.drainStrategies
  by_cases hm : s.opts.minAbsoluteFee ≤ fee
  · rw [if_pos hm, unsigned_add_fits b (by omega), Option.bind_some]
    by_cases hc : fee + s.opts.minDrainValue ≤ imo
    · rw [if_pos hc, if_pos ⟨hm, hc⟩, drainWaste_fits hf, i64_fits b (by omega) (by omega)]; rfl
    · rw [if_neg hc, if_neg (fun x => hc x.2)]
  · rw [if_neg hm, if_neg (fun x => hm x.1)]

include hin in
/-- the result of `finish` in terms of the exact one -/
theorem finish_fits : finish b s =
    match s.finish with
    | some r => some r
    | none => match b with
      | .debug => none
      | .release => some (.ok { selected := s.selected, excess := (s.selectedAbs - s.opts.target -
          (max (CoinSelect.feeU s.currentWeight s.opts.targetFeerate) s.opts.minAbsoluteFee)), strategies := [] }) := by
  have hw := currentWeight_bound hf hin
  have hw2 := hf.weights
  have hv := selectedAbs_le hf hin
  have hv2 := hf.amounts
  have ht := target_le hf
  have f1 : CoinSelect.feeU s.currentWeight s.opts.targetFeerate ≤ 2 ^ 55 := feeU_bound (by omega) hf.rate.1 hf.rate.2
  have f2 : CoinSelect.feeU (s.currentWeight + s.opts.drainWeight) s.opts.targetFeerate ≤ 2 ^ 55 :=
    feeU_bound (by omega) hf.rate.1 hf.rate.2
  have hwaste := selectedWaste_bound hf hin
  unfold finish Selector.finish
  rw [currentWeight_fits b hf hin, Option.bind_some, unsigned_add_fits b (by omega), Option.bind_some]
  simp only []
  rw [selectedAbs_fits b hf hin, Option.bind_some, feeU_eq' (by omega) hf.rate.1 hf.rate.2, feeU_eq' (by omega) hf.rate.1 hf.rate.2,
    shortfalls_fits b hf hin f1 f2, Option.bind_some]
  cases hm : maxByKey (·.2) ((s.shortfalls (CoinSelect.feeU s.currentWeight s.opts.targetFeerate)
      (CoinSelect.feeU (s.currentWeight + s.opts.drainWeight) s.opts.targetFeerate)).filter fun x => decide (0 < x.2)) with
  | some x => rfl
  | none =>
    have hz : ∀ x ∈ s.shortfalls (CoinSelect.feeU s.currentWeight s.opts.targetFeerate)
      (CoinSelect.feeU (s.currentWeight + s.opts.drainWeight) s.opts.targetFeerate), x.2 = 0 := by
      intro x hx
      rw [maxByKey_none, List.filter_eq_nil_iff] at hm
      have := hm x hx
      simp only [decide_eq_true_iff] at this
      omega
    have z1 := hz (.targetValue, s.opts.target - s.selectedAbs) (by unfold Selector.shortfalls; simp)
    have z2 := hz (.targetFee, (s.opts.target + CoinSelect.feeU s.currentWeight s.opts.targetFeerate) - s.selectedAbs)
      (by unfold Selector.shortfalls; simp)
    have z3 := hz (.minAbsoluteFee, (s.opts.target + s.opts.minAbsoluteFee) - s.selectedAbs) (by unfold Selector.shortfalls; simp)
    simp only at z1 z2 z3
    simp only []
    generalize CoinSelect.feeU s.currentWeight s.opts.targetFeerate = fee1 at *
    generalize CoinSelect.feeU (s.currentWeight + s.opts.drainWeight) s.opts.targetFeerate = fee2 at *
    rw [unsigned_fits b (by omega) (by push_cast; omega), Option.bind_some,
      show ((s.selectedAbs : Int) - s.opts.target).toNat = s.selectedAbs - s.opts.target by omega,
      show subU s.selectedAbs s.opts.target = some (s.selectedAbs - s.opts.target) from if_pos (by omega), Option.bind_some,
      unsigned_fits b (by omega) (by push_cast; omega), Option.bind_some,
      show (((s.selectedAbs - s.opts.target : Nat) : Int) - (max fee1 s.opts.minAbsoluteFee : Nat)).toNat =
        s.selectedAbs - s.opts.target - max fee1 s.opts.minAbsoluteFee by omega,
      show subU (s.selectedAbs - s.opts.target) (max fee1 s.opts.minAbsoluteFee) =
        some (s.selectedAbs - s.opts.target - max fee1 s.opts.minAbsoluteFee) from if_pos (by omega), Option.bind_some,
      selectedWaste_fits b hf hin, Option.bind_some, noDrain_fits b hf (by omega) (by omega) hwaste, Option.bind_some,
      drain_fits b hf (by omega) hwaste, Option.bind_some]
    generalize s.noDrainStrategies _ _ _ _ ++ s.drainStrategies _ _ _ _ = l
    by_cases hl : l = []
    · subst hl
      rw [if_pos rfl]
      cases b with
      | debug => rw [if_pos ⟨rfl, rfl⟩]
      | release => rw [if_neg (fun x => by cases x.1)]
    · rw [if_neg hl, if_neg (fun x => hl x.2)]

end

theorem finish_some {s : Selector} (b : Build) (hf : Fits s.opts s.candidates) (hin : s.InRange) {r : Except SelErr Selection}
    (h : s.finish = some r) : finish b s = some r := by
  rw [finish_fits b hf hin, h]

theorem finish_debug {s : Selector} (hf : Fits s.opts s.candidates) (hin : s.InRange) : finish .debug s = s.finish := by
  rw [finish_fits .debug hf hin]
  cases s.finish <;> rfl

theorem select_inRange {s s' : Selector} {i : Nat} {x : Bool} (hin : s.InRange) (h : s.select i = some (x, s')) :
    s'.InRange ∧ s'.opts = s.opts ∧ s'.candidates = s.candidates := by
  unfold Selector.select at h
  by_cases hi : i < s.candidates.length
  · rw [if_pos hi] at h
    cases h
    refine ⟨?_, rfl, rfl⟩
    intro j hj
    rcases Finset.mem_insert.1 hj with rfl | hj
    · exact Finset.mem_range.2 hi
    · exact hin hj
  · rw [if_neg hi] at h; cases h

theorem untilLoop_some (b : Build) : ∀ (l : List Nat) (s : Selector) (r0 : Except SelErr Selection)
    (r : Except SelErr Selection × Selector), Fits s.opts s.candidates → s.InRange → s.untilLoop r0 l = some r →
    untilLoop b s r0 l = some r
  | [], _, _, _, _, _, h => h
  | i :: l, s, r0, r, hf, hin, h => by
    unfold Selector.untilLoop at h
    unfold untilLoop
    cases hs : s.select i with
    | none => rw [hs] at h; cases h
    | some p =>
      obtain ⟨x, s'⟩ := p
      obtain ⟨h1, h2, h3⟩ := select_inRange hin hs
      rw [hs, Option.bind_some] at h
      rw [Option.bind_some]
      simp only at h ⊢
      have hf' : Fits s'.opts s'.candidates := by rw [h2, h3]; exact hf
      cases hfin : s'.finish with
      | none => rw [hfin] at h; cases h
      | some r' =>
        rw [hfin, Option.bind_some] at h
        rw [finish_some b hf' h1 hfin, Option.bind_some]
        cases r' with
        | ok v => exact h
        | error e => exact untilLoop_some b l s' _ r hf' h1 h

theorem untilLoop_debug : ∀ (l : List Nat) (s : Selector) (r0 : Except SelErr Selection),
    Fits s.opts s.candidates → s.InRange → untilLoop .debug s r0 l = s.untilLoop r0 l
  | [], _, _, _, _ => rfl
  | i :: l, s, r0, hf, hin => by
    unfold Selector.untilLoop untilLoop
    cases hs : s.select i with
    | none => rfl
    | some p =>
      obtain ⟨x, s'⟩ := p
      obtain ⟨h1, h2, h3⟩ := select_inRange hin hs
      rw [Option.bind_some, Option.bind_some]
      simp only
      have hf' : Fits s'.opts s'.candidates := by rw [h2, h3]; exact hf
      rw [finish_debug hf' h1]
      cases s'.finish with
      | none => rfl
      | some r' =>
        rw [Option.bind_some, Option.bind_some]
        cases r' with
        | ok v => rfl
        | error e => exact untilLoop_debug l s' _ hf' h1

theorem until_some {s : Selector} (b : Build) (hf : Fits s.opts s.candidates) (hin : s.InRange)
    {r : Except SelErr Selection × Selector} (h : s.selectUntilFinished = some r) : selectUntilFinished b s = some r := by
  unfold Selector.selectUntilFinished at h
  unfold selectUntilFinished
  cases hfin : s.finish with
  | none => rw [hfin] at h; cases h
  | some r' =>
    rw [hfin, Option.bind_some] at h
    rw [finish_some b hf hin hfin, Option.bind_some]
    cases r' with
    | ok v => exact h
    | error e => exact untilLoop_some b _ s _ r hf hin h

theorem until_debug {s : Selector} (hf : Fits s.opts s.candidates) (hin : s.InRange) :
    selectUntilFinished .debug s = s.selectUntilFinished := by
  unfold Selector.selectUntilFinished selectUntilFinished
  rw [finish_debug hf hin]
  cases s.finish with
  | none => rfl
  | some r' =>
    rw [Option.bind_some, Option.bind_some]
    cases r' with
    | ok v => rfl
    | error e => exact untilLoop_debug _ s _ hf hin

end Verif.CoinSelect.Machine
