import Mathlib.Algebra.Order.Floor.Semifield
import Verif.Lemmas.CoinSelect
import Mathlib.Tactic.NormNum
import Mathlib.Tactic.Positivity
import Mathlib.Algebra.BigOperators.Ring.Finset
import Mathlib.Algebra.Order.BigOperators.Group.Finset

/-! # C45, C46: `finish`, `best_strategy` and `select_until_finished` -/

namespace Verif.CoinSelect
open Selector

theorem mem_noDrain {s : Selector} {fee excess w : Nat} {iw : Int} {x : Kind × Strat}
    (h : x ∈ s.noDrainStrategies fee excess w iw) :
    ∃ v extra, s.opts.targetValue = some v ∧ extra ≤ excess ∧ extra ≤ s.opts.maxExtraTarget ∧
      x.2 = ⟨some (v + extra), none, fee + (excess - extra), w, iw + ((excess - extra : Nat) : Int)⟩ := by
  unfold noDrainStrategies at h
  cases ht : s.opts.targetValue with
  | none => rw [ht] at h; cases h
  | some v =>
    rw [ht] at h
    simp only [List.mem_cons] at h
    rcases h with rfl | h
    · exact ⟨v, 0, rfl, Nat.zero_le _, Nat.zero_le _, rfl⟩
    · by_cases hc : 0 < excess ∧ 0 < s.opts.maxExtraTarget
      · rw [if_pos hc, List.mem_singleton] at h
        subst h
        exact ⟨v, min s.opts.maxExtraTarget excess, rfl, Nat.min_le_right _ _, Nat.min_le_left _ _, rfl⟩
      · rw [if_neg hc] at h; cases h

theorem mem_drain {s : Selector} {fee imo w : Nat} {iw : Int} {x : Kind × Strat}
    (h : x ∈ s.drainStrategies fee imo w iw) :
    fee + s.opts.minDrainValue ≤ imo ∧
      x = (.toDrain, ⟨s.opts.targetValue, some (imo - fee), fee, w, iw + s.opts.drainWaste⟩) := by
  unfold drainStrategies at h
  by_cases hc : s.opts.minAbsoluteFee ≤ fee ∧ fee + s.opts.minDrainValue ≤ imo
  · rw [if_pos hc, List.mem_singleton] at h
    exact ⟨hc.2, h⟩
  · rw [if_neg hc] at h; cases h

/-- paying the fee due reaches the rate as `Sound` states it -/
theorem due_rates {w fee : Nat} {r : ℚ} (h : Spec.minFee w r ≤ fee) :
    Spec.minFee w r ≤ fee ∧ (w ≤ 2 ^ 24 → (w : ℚ) * r ≤ 2 ^ 24 → (w : ℚ) * r < fee + 1) ∧
      (Spec.IsF32 r → (w : ℚ) * r * (1 - 1 / 2 ^ 23) ≤ fee) := by
  have hc : (Spec.minFee w r : ℚ) ≤ fee := by exact_mod_cast h
  exact ⟨h, fun h1 h2 => lt_of_lt_of_le (lt_minFee h1 h2) (by linarith), fun h1 => le_trans (minFee_relative h1) hc⟩

/-- **C45** a successful `finish` reports the selector's set of coins, and every strategy it offers is sound: the value
of the coins is split without loss between recipients, change and fee; the fee reaches the target rate for the weight of
the transaction and the absolute minimum; change is at least the least change value; recipients get at least the target
and at most the leeway on top. -/
theorem C45_sound (s : Selector) (sel : Selection) (h : s.finish = some (.ok sel)) :
    sel.selected = s.selected ∧ ∀ x ∈ sel.strategies, Spec.Sound s.opts s.candidates s.selected x.2 := by
  by_cases hr : Spec.required s.opts s.candidates s.selected ≤ Spec.value s.candidates s.selected
  · obtain ⟨h1, h2⟩ := s.finish_ok hr
    rw [h] at h2
    set fee := max (Spec.minFee (Spec.weight s.opts s.candidates s.selected) s.opts.targetFeerate)
      s.opts.minAbsoluteFee with hfee
    set imo := Spec.value s.candidates s.selected - s.opts.target with himo
    split at h2
    · cases h2
    have h3 := Except.ok.inj (Option.some.inj h2)
    subst h3
    refine ⟨rfl, ?_⟩
    intro x hx
    simp only at hx
    rcases List.mem_append.1 hx with hx | hx
    · obtain ⟨v, extra, hv, he, hm, hx⟩ := mem_noDrain hx
      have ht : s.opts.target = v := by rw [Opt.target, hv]; rfl
      rw [hx]
      have hdue : Spec.minFee (Spec.weight s.opts s.candidates s.selected) s.opts.targetFeerate ≤
          fee + (imo - fee - extra) := by omega
      obtain ⟨d1, d2, d3⟩ := due_rates hdue
      refine ⟨?_, ?_, d1, d2, d3, ?_, ?_, ?_⟩
      · simp only [Option.getD_some, Option.getD_none]; omega
      · simp
      · simp only; omega
      · intro d hd; cases hd
      · rw [hv]; exact ⟨_, rfl, by omega, by omega⟩
    · obtain ⟨h4, hx⟩ := mem_drain hx
      have hd : s.opts.minAbsoluteFee ≤ Spec.drainFee s.opts s.candidates s.selected := le_max_right _ _
      have hd2 : Spec.minFee (Spec.weight s.opts s.candidates s.selected + s.opts.drainWeight) s.opts.targetFeerate
        ≤ Spec.drainFee s.opts s.candidates s.selected := le_max_left _ _
      rw [hx]
      obtain ⟨d1, d2, d3⟩ := due_rates hd2
      refine ⟨?_, ?_, d1, d2, d3, ?_, ?_, ?_⟩
      · have : s.opts.target = s.opts.targetValue.getD 0 := rfl
        simp only [Option.getD_some]; omega
      · simp
      · exact hd
      · intro d hd'
        have := Option.some.inj hd'
        omega
      · cases hv : s.opts.targetValue with
        | none => exact ⟨rfl, rfl⟩
        | some v => exact ⟨v, rfl, le_refl _, by omega⟩
  · obtain ⟨c, h1, _⟩ := s.finish_err (not_le.1 hr)
    rw [h1] at h; cases h

/-- **C45** `finish` fails with an error exactly when the coins are worth less than what is required; the error reports
the value of the coins, the exact amount missing (the largest shortfall over all constraints), and a constraint that is
short by that amount. -/
theorem C45_error_iff (s : Selector) (e : SelErr) :
    s.finish = some (.error e) →
      Spec.value s.candidates s.selected < Spec.required s.opts s.candidates s.selected ∧
      e.selected = Spec.value s.candidates s.selected ∧ 0 < e.missing ∧
      e.selected + e.missing = Spec.required s.opts s.candidates s.selected ∧
      Spec.missing s.opts s.candidates s.selected e.constraint = e.missing ∧
      ∀ c, Spec.missing s.opts s.candidates s.selected c ≤ e.missing := by
  intro h
  by_cases hr : Spec.required s.opts s.candidates s.selected ≤ Spec.value s.candidates s.selected
  · obtain ⟨_, h2⟩ := s.finish_ok hr
    rw [h] at h2
    split at h2 <;> simp at h2
  · obtain ⟨c, h1, h2⟩ := s.finish_err (not_le.1 hr)
    rw [h1] at h
    have := Except.error.inj (Option.some.inj h)
    subst this
    have hlt := not_le.1 hr
    refine ⟨hlt, rfl, ?_, ?_, h2, (@required_eq_max s.opts s.candidates s.selected).1⟩
    · simp only; omega
    · simp only; omega

/-- **C45** and conversely: too little value always gives an error. -/
theorem C45_insufficient (s : Selector)
    (h : Spec.value s.candidates s.selected < Spec.required s.opts s.candidates s.selected) :
    ∃ e, s.finish = some (.error e) := by
  obtain ⟨c, h1, _⟩ := s.finish_err h
  exact ⟨_, h1⟩

/-- **C45** with recipients `finish` never panics, and succeeds whenever the coins are worth what is required. -/
theorem C45_sufficient (s : Selector) (v : Nat) (hv : s.opts.targetValue = some v)
    (h : Spec.required s.opts s.candidates s.selected ≤ Spec.value s.candidates s.selected) :
    ∃ sel, s.finish = some (.ok sel) := by
  obtain ⟨_, h2⟩ := s.finish_ok h
  rw [h2, if_neg]
  · exact ⟨_, rfl⟩
  · simp [noDrainStrategies, hv]

/-- the kinds offered, from three conditions -/
def keyList (a b c : Bool) : List Kind :=
  (if a then Kind.toFee :: (if b then [Kind.toRecipient] else []) else []) ++ (if c then [Kind.toDrain] else [])

theorem keyList_facts (a b c : Bool) : (keyList a b c).Nodup ∧ (.toFee ∈ keyList a b c ↔ a = true) ∧
    (.toRecipient ∈ keyList a b c ↔ a = true ∧ b = true) ∧ (.toDrain ∈ keyList a b c ↔ c = true) := by
  revert a b c; decide

theorem keys_eq (s : Selector) (fee excess w dfee imo w' : Nat) (iw : Int) (hd : s.opts.minAbsoluteFee ≤ dfee) :
    (s.noDrainStrategies fee excess w iw ++ s.drainStrategies dfee imo w' iw).map (·.1) =
      keyList s.opts.targetValue.isSome (decide (0 < excess ∧ 0 < s.opts.maxExtraTarget))
        (decide (dfee + s.opts.minDrainValue ≤ imo)) := by
  unfold noDrainStrategies drainStrategies keyList
  cases s.opts.targetValue <;> by_cases h1 : (0 < excess ∧ 0 < s.opts.maxExtraTarget) <;>
    by_cases h2 : dfee + s.opts.minDrainValue ≤ imo <;> simp [h1, h2, hd]

/-- **C45** which strategies are offered (with recipients): paying the excess to the fee always, to the recipient
exactly when there is an excess and a leeway, to a change output exactly when it can be paid for and is large enough. -/
theorem C45_kinds (s : Selector) (sel : Selection) (h : s.finish = some (.ok sel)) :
    (sel.strategies.map (·.1)).Nodup ∧
    (.toFee ∈ sel.strategies.map (·.1) ↔ s.opts.targetValue.isSome) ∧
    (.toRecipient ∈ sel.strategies.map (·.1) ↔
      s.opts.targetValue.isSome ∧ 0 < sel.excess ∧ 0 < s.opts.maxExtraTarget) ∧
    (.toDrain ∈ sel.strategies.map (·.1) ↔
      s.opts.targetValue.getD 0 + Spec.drainFee s.opts s.candidates s.selected + s.opts.minDrainValue
        ≤ Spec.value s.candidates s.selected) ∧
    s.opts.targetValue.getD 0 +
      max (Spec.minFee (Spec.weight s.opts s.candidates s.selected) s.opts.targetFeerate) s.opts.minAbsoluteFee
      + sel.excess = Spec.value s.candidates s.selected := by
  by_cases hr : Spec.required s.opts s.candidates s.selected ≤ Spec.value s.candidates s.selected
  · obtain ⟨h1, h2⟩ := s.finish_ok hr
    rw [h] at h2
    set fee := max (Spec.minFee (Spec.weight s.opts s.candidates s.selected) s.opts.targetFeerate)
      s.opts.minAbsoluteFee with hfee
    have ht : s.opts.target = s.opts.targetValue.getD 0 := rfl
    split at h2
    · cases h2
    have h3 := Except.ok.inj (Option.some.inj h2)
    subst h3
    have hd : s.opts.minAbsoluteFee ≤ Spec.drainFee s.opts s.candidates s.selected := le_max_right _ _
    have hlast : s.opts.targetValue.getD 0 + fee + (Spec.value s.candidates s.selected - s.opts.target - fee) =
      Spec.value s.candidates s.selected := by rw [← ht]; omega
    have hk := keys_eq s fee (Spec.value s.candidates s.selected - s.opts.target - fee)
      (Spec.weight s.opts s.candidates s.selected) (Spec.drainFee s.opts s.candidates s.selected)
      (Spec.value s.candidates s.selected - s.opts.target)
      (Spec.weight s.opts s.candidates s.selected + s.opts.drainWeight) s.selectedWaste hd
    simp only at hk ⊢
    rw [hk]
    obtain ⟨k1, k2, k3, k4⟩ := keyList_facts s.opts.targetValue.isSome
      (decide (0 < Spec.value s.candidates s.selected - s.opts.target - fee ∧ 0 < s.opts.maxExtraTarget))
      (decide (Spec.drainFee s.opts s.candidates s.selected + s.opts.minDrainValue ≤
        Spec.value s.candidates s.selected - s.opts.target))
    refine ⟨k1, k2, ?_, ?_, hlast⟩
    · rw [k3, decide_eq_true_iff]
    · rw [k4, decide_eq_true_iff, ← ht]; omega
  · obtain ⟨c, h1, _⟩ := s.finish_err (not_le.1 hr)
    rw [h1] at h; cases h

/-- **C45** how each strategy splits the value: `toFee` pays the recipients exactly and leaves the rest as fee, `toRecipient`
gives them as much of the excess as the leeway allows, `toDrain` pays exactly the fee due and leaves the rest as change. -/
theorem C45_split (s : Selector) (sel : Selection) (h : s.finish = some (.ok sel)) (st : Strat) :
    ((.toFee, st) ∈ sel.strategies → st.recipientValue = s.opts.targetValue ∧ st.drainValue = none) ∧
    ((.toRecipient, st) ∈ sel.strategies → ∃ v, s.opts.targetValue = some v ∧
      st.recipientValue = some (v + min s.opts.maxExtraTarget sel.excess) ∧ st.drainValue = none) ∧
    ((.toDrain, st) ∈ sel.strategies → st.recipientValue = s.opts.targetValue ∧ st.drainValue.isSome ∧
      st.fee = Spec.drainFee s.opts s.candidates s.selected) := by
  by_cases hr : Spec.required s.opts s.candidates s.selected ≤ Spec.value s.candidates s.selected
  · obtain ⟨h1, h2⟩ := s.finish_ok hr
    rw [h] at h2
    split at h2
    · cases h2
    have h3 := Except.ok.inj (Option.some.inj h2)
    subst h3
    simp only [List.mem_append]
    have nd : ∀ {k : Kind} {st : Strat} {fee excess w : Nat} {iw : Int},
        (k, st) ∈ s.noDrainStrategies fee excess w iw → ∃ v, s.opts.targetValue = some v ∧ st.drainValue = none ∧
          (k = .toFee ∧ st.recipientValue = some v ∨
            k = .toRecipient ∧ st.recipientValue = some (v + min s.opts.maxExtraTarget excess)) := by
      intro k st fee excess w iw hm
      unfold noDrainStrategies at hm
      cases ht : s.opts.targetValue with
      | none => rw [ht] at hm; cases hm
      | some v =>
        rw [ht] at hm
        simp only [List.mem_cons] at hm
        rcases hm with hm | hm
        · cases hm; exact ⟨v, rfl, rfl, .inl ⟨rfl, rfl⟩⟩
        · by_cases hc : 0 < excess ∧ 0 < s.opts.maxExtraTarget
          · rw [if_pos hc, List.mem_singleton] at hm
            cases hm; exact ⟨v, rfl, rfl, .inr ⟨rfl, rfl⟩⟩
          · rw [if_neg hc] at hm; cases hm
    refine ⟨?_, ?_, ?_⟩
    · rintro (hm | hm)
      · obtain ⟨v, hv, h5, ⟨-, h6⟩ | ⟨h6, -⟩⟩ := nd hm
        · exact ⟨by rw [h6, hv], h5⟩
        · cases h6
      · have := (mem_drain hm).2; cases this
    · rintro (hm | hm)
      · obtain ⟨v, hv, h5, ⟨h6, -⟩ | ⟨-, h6⟩⟩ := nd hm
        · cases h6
        · exact ⟨v, hv, h6, h5⟩
      · have := (mem_drain hm).2; cases this
    · rintro (hm | hm)
      · obtain ⟨v, hv, h5, ⟨h6, -⟩ | ⟨h6, -⟩⟩ := nd hm <;> cases h6
      · have := (mem_drain hm).2
        cases this
        exact ⟨rfl, rfl, rfl⟩
  · obtain ⟨c, h1, _⟩ := s.finish_err (not_le.1 hr)
    rw [h1] at h; cases h

/-- **C45** the reported waste is that of the inputs, plus the cost of the change output or what is paid beyond the fee due -/
theorem C45_waste (s : Selector) (sel : Selection) (h : s.finish = some (.ok sel)) (x : Kind × Strat)
    (hx : x ∈ sel.strategies) : x.2.waste = Spec.stratWaste s.opts s.candidates s.selected x.2 := by
  have hw : s.selectedWaste = Spec.inputWaste s.opts s.candidates s.selected := by
    show truncI _ = Spec.wholeSats _
    rw [longTerm_eq]; rfl
  by_cases hr : Spec.required s.opts s.candidates s.selected ≤ Spec.value s.candidates s.selected
  · obtain ⟨h1, h2⟩ := s.finish_ok hr
    rw [h] at h2
    split at h2
    · cases h2
    have h3 := Except.ok.inj (Option.some.inj h2)
    subst h3
    rcases List.mem_append.1 hx with hm | hm
    · obtain ⟨v, extra, hv, he, hm, hx⟩ := mem_noDrain hm
      rw [hx, hw]
      simp only [Spec.stratWaste, Option.isSome_none, Bool.false_eq_true, if_false]
      push_cast; omega
    · obtain ⟨h4, hx⟩ := mem_drain hm
      rw [hx, hw, drainWaste_eq]
      simp [Spec.stratWaste]
  · obtain ⟨c, h1, _⟩ := s.finish_err (not_le.1 hr)
    rw [h1] at h; cases h

/-- **C45** what `WeightedValue::new` and `CoinSelectorOpt::from_weights` set: an input is an outpoint (36 bytes), a sequence
number (4 bytes) and its satisfaction; the least change value is three times what creating and spending the change output
costs at one satoshi per virtual byte, rounded down (weights up to 2^24; a block is 4 000 000); nothing else is required. -/
theorem C45_constructors (value sat base drain spend : Nat) (segwit : Bool) :
    WV.new value sat segwit = ⟨value, 4 * (36 + 4) + sat, 1, segwit⟩ ∧
    (drain + spend ≤ 2 ^ 24 →
      Opt.fromWeights base drain spend = ⟨none, 0, 1 / 4, none, 0, base, drain, spend, 3 * ((drain + spend) / 4)⟩) := by
  refine ⟨by simp [WV.new, txinBaseWeight], fun hw => ?_⟩
  have : truncU (mulF (drain + spend) (1 / 4)) = (drain + spend) / 4 := by
    unfold truncU
    rw [mulF_eq, product_dyadic (k := 1) (j := 2) (by norm_num) (by norm_num) hw (by omega), mul_one_div]
    have := Int.floor_toNat (((drain + spend : Nat) : ℚ) / 4)
    rw [this]
    exact_mod_cast Nat.floor_div_eq_div (K := ℚ) (drain + spend) 4
  simp only [Opt.fromWeights, this]

/-- **C45** `best_strategy` of a successful selection never panics and returns a strategy of the selection with the
least waste, whatever the iteration order of the hash map. -/
theorem C45_best (s : Selector) (sel : Selection) (h : s.finish = some (.ok sel))
    (order : List (Kind × Strat)) (ho : order.Perm sel.strategies) :
    ∃ x, Selection.bestStrategy order = some x ∧ x ∈ sel.strategies ∧
      ∀ y ∈ sel.strategies, x.2.waste ≤ y.2.waste := by
  have hne : sel.strategies ≠ [] := by
    by_cases hr : Spec.required s.opts s.candidates s.selected ≤ Spec.value s.candidates s.selected
    · obtain ⟨_, h2⟩ := s.finish_ok hr
      rw [h] at h2
      split at h2
      · cases h2
      · rename_i hn
        have h3 := Except.ok.inj (Option.some.inj h2)
        subst h3
        exact hn
    · obtain ⟨c, h1, _⟩ := s.finish_err (not_le.1 hr)
      rw [h1] at h; cases h
  have hne' : order ≠ [] := fun he => hne (by rw [he] at ho; exact ho.symm.eq_nil)
  obtain ⟨x, hx⟩ := minByKey_ne_none (key := fun p : Kind × Strat => p.2.waste) hne'
  obtain ⟨h1, h2⟩ := minByKey_some hx
  exact ⟨x, hx, ho.mem_iff.1 h1, fun y hy => h2 y (ho.mem_iff.2 hy)⟩

/-- **C45, limit of the claim** without recipients `finish` panics (the debug assertion that some strategy exists)
exactly when the coins cover every checked constraint but not the change output's least value on top of the *absolute
minimum fee*, which the check of `MinDrainValue` forgets. -/
theorem C45_panic_iff (s : Selector) :
    s.finish = none ↔ s.opts.targetValue = none ∧
      Spec.required s.opts s.candidates s.selected ≤ Spec.value s.candidates s.selected ∧
      Spec.value s.candidates s.selected < s.opts.minAbsoluteFee + s.opts.minDrainValue := by
  by_cases hr : Spec.required s.opts s.candidates s.selected ≤ Spec.value s.candidates s.selected
  · obtain ⟨h1, h2⟩ := s.finish_ok hr
    rw [h2]
    have hd : s.opts.minAbsoluteFee ≤ Spec.drainFee s.opts s.candidates s.selected := le_max_right _ _
    cases hv : s.opts.targetValue with
    | some v =>
      rw [if_neg (by simp [noDrainStrategies, hv])]
      simp
    | none =>
      have ht : s.opts.target = 0 := by rw [Opt.target, hv]; rfl
      have hreq : Spec.minFee (Spec.weight s.opts s.candidates s.selected + s.opts.drainWeight) s.opts.targetFeerate
          + s.opts.minDrainValue ≤ Spec.value s.candidates s.selected := by
        refine le_trans ?_ hr
        unfold Spec.required
        rw [hv]
        exact le_max_right _ _
      have hdf : Spec.drainFee s.opts s.candidates s.selected =
        max (Spec.minFee (Spec.weight s.opts s.candidates s.selected + s.opts.drainWeight) s.opts.targetFeerate)
          s.opts.minAbsoluteFee := rfl
      simp only [noDrainStrategies, drainStrategies, hv, hd, true_and, List.nil_append, ht, Nat.sub_zero]
      by_cases hc : Spec.drainFee s.opts s.candidates s.selected + s.opts.minDrainValue
          ≤ Spec.value s.candidates s.selected
      · simp only [hc, if_true]
        simp only [List.cons_ne_nil, if_false]
        constructor
        · intro h; cases h
        · rintro ⟨_, h⟩; omega
      · simp only [hc, if_false, if_true]
        refine iff_of_true trivial ⟨hr, by omega⟩
  · obtain ⟨c, h1, _⟩ := s.finish_err (not_le.1 hr)
    rw [h1]
    constructor
    · intro h; cases h
    · rintro ⟨_, h, _⟩; exact absurd h hr

/-! A concrete selector. -/

/-- options of the examples: rate 1/4 sat/wu -/
def exOpt (target : Option Nat) (minAbs : Nat) : Opt :=
  { targetValue := target, maxExtraTarget := 50, targetFeerate := 1 / 4, longTermFeerate := none,
    minAbsoluteFee := minAbs, baseWeight := 100, drainWeight := 100, spendDrainWeight := 200, minDrainValue := 500 }
/-- two coins -/
def exCoins : List WV := [⟨1200, 200, 1, true⟩, ⟨3000, 300, 1, false⟩]
/-- the first coin is selected -/
def exSel (target : Option Nat) (minAbs : Nat) : Selector := ⟨exOpt target minAbs, exCoins, {0}⟩

/-- the hypotheses of `C45_sound` and `C45_best` are met by a selection with all three strategies … -/
example : ∃ sel, (exSel (some 500) 0).finish = some (.ok sel) ∧
    sel.strategies.map (·.1) = [.toFee, .toRecipient, .toDrain] := by
  have h1 : (exSel (some 500) 0).finish = some (.ok ⟨{0}, 624,
      [(.toFee, ⟨some 500, none, 700, 302, 624⟩), (.toRecipient, ⟨some 550, none, 650, 302, 574⟩),
       (.toDrain, ⟨some 500, some 599, 101, 402, 75⟩)]⟩) := by decide +kernel
  exact ⟨_, h1, rfl⟩

/-- … and those of `C45_error_iff` by one that is 276 short. -/
example : (exSel (some 1400) 0).finish = some (.error ⟨1200, 276, .targetFee⟩) := by decide +kernel

/-- **C45, limit of the claim** the panic is reachable: a wallet sweep with an absolute minimum fee of 1000, least
change of 500 and a coin of 1200. -/
theorem C45_panic_reachable :
    (Selector.new exCoins (exOpt none 1000)).run [.select 0] = some (exSel none 1000) ∧
    (exSel none 1000).finish = none := by
  constructor
  · rfl
  · decide +kernel

/-! ## C46 -/

/-- indexes in range -/
def Selector.InRange (s : Selector) : Prop := s.selected ⊆ Finset.range s.candidates.length

/-- Enough value for the requirement: the test `finish` makes. -/
def Spec.Sufficient (o : Opt) (cs : List WV) (X : Finset Nat) : Prop := Spec.required o cs X ≤ Spec.value cs X

/-- The coins selected at the start plus the first `k` of the others, in the order of the list of candidates. -/
def Spec.stage (n : Nat) (X : Finset Nat) (k : Nat) : Finset Nat :=
  X ∪ (((Finset.range n \ X).sort (· ≤ ·)).take k).toFinset

theorem unselectedIndexes_eq (s : Selector) :
    s.unselectedIndexes = (Finset.range s.candidates.length \ s.selected).sort (· ≤ ·) := by
  have hp : s.unselectedIndexes.Perm ((Finset.range s.candidates.length \ s.selected).sort (· ≤ ·)) := by
    refine (List.perm_ext_iff_of_nodup ?_ ?_).2 ?_
    · exact List.nodup_range.filter _
    · exact Finset.sort_nodup _ _
    · intro a
      simp [unselectedIndexes, Finset.mem_sort]
  refine hp.eq_of_pairwise (le := fun a b => decide (a ≤ b)) ?_ ?_ ?_
  · intro a b _ _ h1 h2
    simp only [decide_eq_true_eq] at h1 h2
    omega
  · unfold unselectedIndexes
    refine List.Pairwise.filter _ ?_
    exact (List.pairwise_le_range).imp (by simp)
  · exact (Finset.pairwise_sort _ _).imp (by simp)

theorem mem_unselectedIndexes {s : Selector} {i : Nat} :
    i ∈ s.unselectedIndexes ↔ i < s.candidates.length ∧ i ∉ s.selected := by
  simp [unselectedIndexes]

theorem insert_union_toFinset (X : Finset Nat) (i : Nat) (l : List Nat) :
    insert i X ∪ l.toFinset = X ∪ (i :: l).toFinset := by
  ext a
  simp only [Finset.mem_union, Finset.mem_insert, List.mem_toFinset, List.mem_cons]
  tauto

/-- the loop, from any selector and any list of indexes in range -/
theorem untilLoop_spec (l : List Nat) : ∀ (s : Selector) (e : SelErr) (r : Except SelErr Selection) (s' : Selector),
    s.finish = some (.error e) → untilLoop s (.error e) l = some (r, s') →
    ∃ k, k ≤ l.length ∧ s' = { s with selected := s.selected ∪ (l.take k).toFinset } ∧ s'.finish = some r ∧
      (∀ j < k, ∃ e, ({ s with selected := s.selected ∪ (l.take j).toFinset } : Selector).finish = some (.error e)) ∧
      ((∃ e, r = .error e) → k = l.length) := by
  induction l with
  | nil =>
    intro s e r s' hf h
    simp only [untilLoop, Option.some.injEq, Prod.mk.injEq] at h
    obtain ⟨rfl, rfl⟩ := h
    exact ⟨0, le_refl _, by simp, hf, by simp, fun _ => rfl⟩
  | cons i rest ih =>
    intro s e r s' hf h
    simp only [untilLoop] at h
    cases hs : s.select i with
    | none => rw [hs] at h; cases h
    | some p =>
      rw [hs] at h
      obtain ⟨b, s1⟩ := p
      simp only [Option.bind_some] at h
      have hs1 : s1 = { s with selected := insert i s.selected } := by
        unfold select at hs
        split at hs
        · simp only [Option.some.injEq, Prod.mk.injEq] at hs; exact hs.2.symm
        · cases hs
      cases hf1 : s1.finish with
      | none => rw [hf1] at h; cases h
      | some r1 =>
        rw [hf1] at h
        simp only [Option.bind_some] at h
        cases r1 with
        | ok x =>
          simp only [Option.some.injEq, Prod.mk.injEq] at h
          obtain ⟨rfl, rfl⟩ := h
          refine ⟨1, by simp, ?_, hf1, ?_, ?_⟩
          · rw [hs1, List.take_succ_cons, ← insert_union_toFinset]; simp
          · intro j hj
            have : j = 0 := by omega
            subst this
            exact ⟨e, by simpa using hf⟩
          · rintro ⟨e, he⟩; cases he
        | error e1 =>
          obtain ⟨k, h1, h2, h3, h4, h5⟩ := ih s1 e1 r s' hf1 h
          refine ⟨k + 1, by simpa using h1, ?_, h3, ?_, ?_⟩
          · rw [h2, hs1, List.take_succ_cons, ← insert_union_toFinset]
          · intro j hj
            cases j with
            | zero => exact ⟨e, by simpa using hf⟩
            | succ j =>
              obtain ⟨e', he'⟩ := h4 j (by omega)
              refine ⟨e', ?_⟩
              rw [hs1] at he'
              simp only at he'
              rw [insert_union_toFinset] at he'
              rw [List.take_succ_cons]; exact he'
          · intro hr; rw [h5 hr]; rfl

theorem untilLoop_no_panic (l : List Nat) : ∀ (s : Selector) (r : Except SelErr Selection),
    (∀ i ∈ l, i < s.candidates.length) → s.opts.targetValue.isSome →
    ∃ x, untilLoop s r l = some x := by
  induction l with
  | nil => intro s r _ _; exact ⟨_, rfl⟩
  | cons i rest ih =>
    intro s r hl ht
    simp only [untilLoop]
    have hs : s.select i = some (!decide (i ∈ s.selected), { s with selected := insert i s.selected }) := by
      rw [select, if_pos (hl i List.mem_cons_self)]
    rw [hs]
    simp only [Option.bind_some]
    cases hf : ({ s with selected := insert i s.selected } : Selector).finish with
    | none =>
      have := (C45_panic_iff _).1 hf
      obtain ⟨v, hv⟩ := Option.isSome_iff_exists.1 ht
      rw [hv] at this
      exact absurd this.1 (by simp)
    | some r1 =>
      simp only [Option.bind_some]
      cases r1 with
      | ok x => exact ⟨_, rfl⟩
      | error e => exact ih _ _ (fun i hi => hl i (List.mem_cons_of_mem _ hi)) ht

theorem finish_ok_sufficient {s : Selector} {x : Selection} (h : s.finish = some (.ok x)) :
    Spec.Sufficient s.opts s.candidates s.selected := by
  by_contra hn
  obtain ⟨c, h1, _⟩ := s.finish_err (not_le.1 hn)
  rw [h1] at h; cases h

theorem finish_err_not_sufficient {s : Selector} {e : SelErr} (h : s.finish = some (.error e)) :
    ¬ Spec.Sufficient s.opts s.candidates s.selected := not_le.2 (C45_error_iff s e h).1

/-- **C46** `select_until_finished` adds the unselected coins one at a time in list order and stops at the first
selection that suffices, leaving the selector there and returning what `finish` says of it; it returns an error only
after selecting everything. -/
theorem C46_first_sufficient (s s' : Selector) (r : Except SelErr Selection)
    (hin : s.selected ⊆ Finset.range s.candidates.length) (h : s.selectUntilFinished = some (r, s')) :
    ∃ k, k ≤ s.candidates.length ∧
      s' = { s with selected := Spec.stage s.candidates.length s.selected k } ∧ s'.finish = some r ∧
      (∀ j < k, ¬ Spec.Sufficient s.opts s.candidates (Spec.stage s.candidates.length s.selected j)) ∧
      ((∃ x, r = .ok x) → Spec.Sufficient s.opts s.candidates s'.selected) ∧
      ((∃ e, r = .error e) → s'.selected = Finset.range s.candidates.length ∧
        ¬ Spec.Sufficient s.opts s.candidates (Finset.range s.candidates.length)) := by
  unfold selectUntilFinished at h
  cases hf : s.finish with
  | none => rw [hf] at h; cases h
  | some r0 =>
    rw [hf] at h
    simp only [Option.bind_some] at h
    cases r0 with
    | ok x =>
      simp only [Option.some.injEq, Prod.mk.injEq] at h
      obtain ⟨rfl, rfl⟩ := h
      refine ⟨0, Nat.zero_le _, by simp [Spec.stage], hf, by simp, fun _ => finish_ok_sufficient hf, ?_⟩
      rintro ⟨e, he⟩; cases he
    | error e0 =>
      simp only at h
      obtain ⟨k, h1, h2, h3, h4, h5⟩ := untilLoop_spec _ s e0 r s' hf h
      have hlen : s.unselectedIndexes.length ≤ s.candidates.length := by
        unfold unselectedIndexes
        exact le_trans (List.length_filter_le _ _) (by simp)
      have hst : ∀ j, s.selected ∪ (s.unselectedIndexes.take j).toFinset =
          Spec.stage s.candidates.length s.selected j := by
        intro j; rw [unselectedIndexes_eq]; rfl
      rw [hst k] at h2
      have hopts : s'.opts = s.opts := by rw [h2]
      have hc : s'.candidates = s.candidates := by rw [h2]
      refine ⟨k, le_trans h1 hlen, h2, h3, ?_, ?_, ?_⟩
      · intro j hj
        obtain ⟨e, he⟩ := h4 j hj
        rw [hst j] at he
        exact finish_err_not_sufficient he
      · rintro ⟨x, rfl⟩
        have := finish_ok_sufficient h3
        rwa [hopts, hc] at this
      · rintro ⟨e, rfl⟩
        have hk := h5 ⟨e, rfl⟩
        have hall : s'.selected = Finset.range s.candidates.length := by
          rw [h2, ← hst k, hk, List.take_length]
          ext i
          simp only [Finset.mem_union, List.mem_toFinset, mem_unselectedIndexes, Finset.mem_range]
          constructor
          · rintro (hi | hi)
            · exact Finset.mem_range.1 (hin hi)
            · exact hi.1
          · intro hi
            by_cases hm : i ∈ s.selected
            · exact Or.inl hm
            · exact Or.inr ⟨hi, hm⟩
        refine ⟨hall, ?_⟩
        have := finish_err_not_sufficient h3
        rwa [hopts, hc, hall] at this

/-- **C46** with recipients `select_until_finished` never panics. -/
theorem C46_no_panic (s : Selector) (v : Nat) (hv : s.opts.targetValue = some v) :
    ∃ x, s.selectUntilFinished = some x := by
  unfold selectUntilFinished
  cases hf : s.finish with
  | none =>
    have := (C45_panic_iff _).1 hf
    rw [hv] at this
    exact absurd this.1 (by simp)
  | some r =>
    simp only [Option.bind_some]
    cases r with
    | ok x => exact ⟨_, rfl⟩
    | error e => exact untilLoop_no_panic _ _ _ (fun i hi => (mem_unselectedIndexes.1 hi).1) (by rw [hv]; rfl)

/-- **C46** with recipients it succeeds exactly when one of the stages suffices; in particular whenever selecting
everything does. -/
theorem C46_ok_iff (s : Selector) (v : Nat) (hv : s.opts.targetValue = some v)
    (hin : s.selected ⊆ Finset.range s.candidates.length) :
    (∃ x s', s.selectUntilFinished = some (.ok x, s')) ↔
      ∃ k, Spec.Sufficient s.opts s.candidates (Spec.stage s.candidates.length s.selected k) := by
  constructor
  · rintro ⟨x, s', h⟩
    obtain ⟨k, _, h2, _, _, h5, _⟩ := C46_first_sufficient s s' _ hin h
    have := h5 ⟨x, rfl⟩
    rw [h2] at this
    exact ⟨k, this⟩
  · rintro ⟨k, hk⟩
    obtain ⟨⟨r, s'⟩, h⟩ := C46_no_panic s v hv
    cases r with
    | ok x => exact ⟨x, s', h⟩
    | error e =>
      exfalso
      obtain ⟨k', _, h2, _, h4, _, h6⟩ := C46_first_sufficient s s' _ hin h
      by_cases hlt : k < k'
      · exact h4 k hlt hk
      · obtain ⟨h7, h8⟩ := h6 ⟨e, rfl⟩
        apply h8
        have hsub : Spec.stage s.candidates.length s.selected k' ⊆ Spec.stage s.candidates.length s.selected k := by
          unfold Spec.stage
          refine Finset.union_subset_union (le_refl _) ?_
          intro i hi
          rw [List.mem_toFinset] at hi ⊢
          exact (List.take_prefix_take_left (not_lt.1 hlt)).subset hi
        have hle : Spec.stage s.candidates.length s.selected k ⊆ Finset.range s.candidates.length := by
          unfold Spec.stage
          refine Finset.union_subset hin ?_
          intro i hi
          rw [List.mem_toFinset] at hi
          have := List.mem_of_mem_take hi
          rw [Finset.mem_sort] at this
          exact (Finset.mem_sdiff.1 this).1
        have h2' : s'.selected = Spec.stage s.candidates.length s.selected k' := by rw [h2]
        rw [← h2', h7] at hsub
        rw [Finset.Subset.antisymm hsub hle]
        exact hk

theorem counterLen_bounds (v : Nat) : 1 ≤ Spec.counterLen v ∧ Spec.counterLen v ≤ 9 := by
  unfold Spec.counterLen; split_ifs <;> omega

/-- the weight of a larger selection: the weight of the further coins, and at most 34 weight units of headers -/
theorem weight_superset (o : Opt) (cs : List WV) {T U : Finset Nat} (hTU : T ⊆ U) (hne : U \ T ≠ ∅) :
    Spec.weight o cs U ≤ Spec.weight o cs T + ∑ i ∈ U \ T, ((cs.getD i default).weight + 34) := by
  have hcard : 1 ≤ (U \ T).card := Finset.card_pos.2 (Finset.nonempty_iff_ne_empty.2 hne)
  unfold Spec.weight
  rw [← Finset.sum_sdiff hTU, Finset.sum_add_distrib, Finset.sum_const, nsmul_eq_mul]
  simp only [Nat.cast_id]
  have h1 := counterLen_bounds (∑ i ∈ U, (cs.getD i default).inputCount)
  have h2 := counterLen_bounds (∑ i ∈ T, (cs.getD i default).inputCount)
  have h3 : 34 ≤ (U \ T).card * 34 := by omega
  have h4 : (if ∃ i ∈ U, (cs.getD i default).isSegwit = true then 2 else 0) ≤ 2 := by split_ifs <;> omega
  omega

theorem weight_mono (o : Opt) (cs : List WV) {T U : Finset Nat} (hTU : T ⊆ U) : Spec.weight o cs T ≤ Spec.weight o cs U := by
  unfold Spec.weight
  have h1 : ∑ i ∈ T, (cs.getD i default).weight ≤ ∑ i ∈ U, (cs.getD i default).weight :=
    Finset.sum_le_sum_of_subset hTU
  have h2 : (if ∃ i ∈ T, (cs.getD i default).isSegwit = true then 2 else 0) ≤
      (if ∃ i ∈ U, (cs.getD i default).isSegwit = true then 2 else 0) := by
    by_cases h : ∃ i ∈ T, (cs.getD i default).isSegwit = true
    · rw [if_pos h, if_pos (by obtain ⟨i, hi, hs⟩ := h; exact ⟨i, hTU hi, hs⟩)]
    · rw [if_neg h]; exact Nat.zero_le _
  have h3 : ∑ i ∈ T, (cs.getD i default).inputCount ≤ ∑ i ∈ U, (cs.getD i default).inputCount :=
    Finset.sum_le_sum_of_subset hTU
  have h4 : Spec.counterLen (∑ i ∈ T, (cs.getD i default).inputCount) ≤
      Spec.counterLen (∑ i ∈ U, (cs.getD i default).inputCount) := by
    unfold Spec.counterLen; split_ifs <;> omega
  omega

/-- enough is still enough with more coins, when the fee grows by no more than their value -/
theorem sufficient_of_fee {o : Opt} {cs : List WV} {T U : Finset Nat} (hTU : T ⊆ U) {v : Nat} (hv : o.targetValue = some v)
    (hfee : Spec.minFee (Spec.weight o cs U) o.targetFeerate ≤
      Spec.minFee (Spec.weight o cs T) o.targetFeerate + ∑ i ∈ U \ T, (cs.getD i default).value)
    (hT : Spec.Sufficient o cs T) : Spec.Sufficient o cs U := by
  have hval : Spec.value cs U = Spec.value cs T + ∑ i ∈ U \ T, (cs.getD i default).value := by
    unfold Spec.value; rw [← Finset.sum_sdiff hTU, Nat.add_comm]
  unfold Spec.Sufficient at hT ⊢
  rw [hval]
  unfold Spec.required at hT ⊢
  rw [hv] at hT ⊢
  simp only [Option.getD_some] at hT ⊢
  omega

/-- the fee grows by no more than the value of further coins that pay for their weight, for the largest possible growth of the
headers (34 weight units) and for one satoshi of rounding -/
theorem fee_growth {o : Opt} {cs : List WV} {T U : Finset Nat} (hr : 0 ≤ o.targetFeerate) (hTU : T ⊆ U)
    (hw : Spec.weight o cs U ≤ 2 ^ 24) (hwr : (Spec.weight o cs U : ℚ) * o.targetFeerate ≤ 2 ^ 24)
    (hpay : ∀ i ∈ U \ T, (((cs.getD i default).weight + 34 : Nat) : ℚ) * o.targetFeerate + 1 ≤ (cs.getD i default).value) :
    Spec.minFee (Spec.weight o cs U) o.targetFeerate ≤
      Spec.minFee (Spec.weight o cs T) o.targetFeerate + ∑ i ∈ U \ T, (cs.getD i default).value := by
  by_cases hne : U \ T = ∅
  · have : T = U := Finset.Subset.antisymm hTU (Finset.sdiff_eq_empty_iff_subset.1 hne)
    rw [← this]; omega
  have hcard : 1 ≤ (U \ T).card := Finset.card_pos.2 (Finset.nonempty_iff_ne_empty.2 hne)
  have h1 := weight_superset o cs hTU hne
  have h0 := weight_mono o cs hTU
  have h1' : (Spec.weight o cs U : ℚ) ≤ Spec.weight o cs T + ((∑ i ∈ U \ T, ((cs.getD i default).weight + 34) : Nat) : ℚ) := by
    exact_mod_cast h1
  have h0' : (Spec.weight o cs T : ℚ) ≤ Spec.weight o cs U := by exact_mod_cast h0
  have hsum : ((∑ i ∈ U \ T, ((cs.getD i default).weight + 34) : Nat) : ℚ) * o.targetFeerate + 1 ≤
      ((∑ i ∈ U \ T, (cs.getD i default).value : Nat) : ℚ) := by
    rw [Nat.cast_sum, Nat.cast_sum, Finset.sum_mul]
    have h2 := Finset.sum_le_sum hpay
    rw [Finset.sum_add_distrib, Finset.sum_const, nsmul_eq_mul, mul_one] at h2
    have h3 : (1 : ℚ) ≤ (U \ T).card := by exact_mod_cast hcard
    linarith
  have h4 := minFee_le_ceil hw hwr
  have h5 := lt_minFee (w := Spec.weight o cs T) (r := o.targetFeerate) (by omega) (by nlinarith)
  refine le_trans h4 (Nat.ceil_le.2 ?_)
  have h6 := mul_le_mul_of_nonneg_right h1' hr
  rw [add_mul] at h6
  rw [Nat.cast_add]
  linarith

/-- with a rate for which nothing is rounded, the coins need not pay for rounding -/
theorem fee_growth_exact {o : Opt} {cs : List WV} {T U : Finset Nat} (hr : 0 ≤ o.targetFeerate) (hTU : T ⊆ U)
    (hexU : Spec.product (Spec.weight o cs U) o.targetFeerate = (Spec.weight o cs U : ℚ) * o.targetFeerate)
    (hexT : Spec.product (Spec.weight o cs T) o.targetFeerate = (Spec.weight o cs T : ℚ) * o.targetFeerate)
    (hpay : ∀ i ∈ U \ T, (((cs.getD i default).weight + 34 : Nat) : ℚ) * o.targetFeerate ≤ (cs.getD i default).value) :
    Spec.minFee (Spec.weight o cs U) o.targetFeerate ≤
      Spec.minFee (Spec.weight o cs T) o.targetFeerate + ∑ i ∈ U \ T, (cs.getD i default).value := by
  by_cases hne : U \ T = ∅
  · have : T = U := Finset.Subset.antisymm hTU (Finset.sdiff_eq_empty_iff_subset.1 hne)
    rw [← this]; omega
  have h1 := weight_superset o cs hTU hne
  have h1' : (Spec.weight o cs U : ℚ) ≤ Spec.weight o cs T + ((∑ i ∈ U \ T, ((cs.getD i default).weight + 34) : Nat) : ℚ) := by
    exact_mod_cast h1
  have hsum : ((∑ i ∈ U \ T, ((cs.getD i default).weight + 34) : Nat) : ℚ) * o.targetFeerate ≤
      ((∑ i ∈ U \ T, (cs.getD i default).value : Nat) : ℚ) := by
    rw [Nat.cast_sum, Nat.cast_sum, Finset.sum_mul]
    exact Finset.sum_le_sum hpay
  have h5 : Spec.product (Spec.weight o cs T) o.targetFeerate ≤ (Spec.minFee (Spec.weight o cs T) o.targetFeerate : ℚ) := Nat.le_ceil _
  refine Nat.ceil_le.2 ?_
  rw [hexU]
  rw [hexT] at h5
  have h6 := mul_le_mul_of_nonneg_right h1' hr
  rw [add_mul] at h6
  rw [Nat.cast_add]
  linarith

theorem stage_all (s : Selector) (hin : s.selected ⊆ Finset.range s.candidates.length) :
    Spec.stage s.candidates.length s.selected s.candidates.length = Finset.range s.candidates.length := by
  unfold Spec.stage
  rw [List.take_of_length_le]
  · rw [Finset.sort_toFinset, Finset.union_sdiff_of_subset hin]
  · rw [Finset.length_sort]
    refine le_trans (Finset.card_le_card Finset.sdiff_subset) ?_
    simp

/-- **C46** everyday sizes (all coins together weigh at most 2^24 and cost at most 2^24 satoshis): if every unselected coin pays for
itself (its weight plus 34 weight units of headers at the target rate, and one satoshi of rounding), then
`select_until_finished` succeeds whenever *any* selection containing the current one suffices. -/
theorem C46_any (s : Selector) (v : Nat) (hv : s.opts.targetValue = some v) (hr : 0 ≤ s.opts.targetFeerate)
    (hin : s.selected ⊆ Finset.range s.candidates.length)
    (hw : Spec.weight s.opts s.candidates (Finset.range s.candidates.length) ≤ 2 ^ 24)
    (hwr : (Spec.weight s.opts s.candidates (Finset.range s.candidates.length) : ℚ) * s.opts.targetFeerate ≤ 2 ^ 24)
    (hpay : ∀ i < s.candidates.length, i ∉ s.selected →
      (((s.candidates.getD i default).weight + 34 : Nat) : ℚ) * s.opts.targetFeerate + 1
        ≤ (s.candidates.getD i default).value)
    (T : Finset Nat) (hT : s.selected ⊆ T) (hTn : T ⊆ Finset.range s.candidates.length)
    (hs : Spec.Sufficient s.opts s.candidates T) :
    ∃ x s', s.selectUntilFinished = some (.ok x, s') := by
  rw [C46_ok_iff s v hv hin]
  refine ⟨s.candidates.length, ?_⟩
  rw [stage_all s hin]
  refine sufficient_of_fee hTn hv (fee_growth hr hTn hw hwr ?_) hs
  intro i hi
  rw [Finset.mem_sdiff, Finset.mem_range] at hi
  exact hpay i hi.1 (fun h => hi.2 (hT h))

/-- **C46** the same at a rate that is a multiple `k / 2 ^ j` of a power of two (such as 1/4, one satoshi per virtual byte), with all
the weight times `k` at most 2^24: nothing is rounded, so the coins need not pay for rounding. -/
theorem C46_any_exact (s : Selector) (v : Nat) (hv : s.opts.targetValue = some v) (k j : Nat)
    (hrate : s.opts.targetFeerate = k / 2 ^ j) (hj : j ≤ 149)
    (hin : s.selected ⊆ Finset.range s.candidates.length)
    (hw : Spec.weight s.opts s.candidates (Finset.range s.candidates.length) ≤ 2 ^ 24)
    (hwk : Spec.weight s.opts s.candidates (Finset.range s.candidates.length) * k ≤ 2 ^ 24)
    (hpay : ∀ i < s.candidates.length, i ∉ s.selected →
      (((s.candidates.getD i default).weight + 34 : Nat) : ℚ) * s.opts.targetFeerate
        ≤ (s.candidates.getD i default).value)
    (T : Finset Nat) (hT : s.selected ⊆ T) (hTn : T ⊆ Finset.range s.candidates.length)
    (hs : Spec.Sufficient s.opts s.candidates T) :
    ∃ x s', s.selectUntilFinished = some (.ok x, s') := by
  have hr : 0 ≤ s.opts.targetFeerate := by rw [hrate]; positivity
  have hm := weight_mono s.opts s.candidates hTn
  rw [C46_ok_iff s v hv hin]
  refine ⟨s.candidates.length, ?_⟩
  rw [stage_all s hin]
  refine sufficient_of_fee hTn hv (fee_growth_exact hr hTn (product_dyadic hrate hj hw hwk)
    (product_dyadic hrate hj (by omega) (le_trans (Nat.mul_le_mul_right k hm) hwk)) ?_) hs
  intro i hi
  rw [Finset.mem_sdiff, Finset.mem_range] at hi
  exact hpay i hi.1 (fun h => hi.2 (hT h))

/-- a concrete case of `C46_any` (and of `C46_ok_iff`, `C46_first_sufficient`): 2000 is out of reach of the first coin
alone, so the second is added -/
example : (∀ i < exCoins.length, i ∉ (exSel (some 2000) 0).selected →
      (((exCoins.getD i default).weight + 34 : Nat) : ℚ) * (1 / 4) + 1 ≤ (exCoins.getD i default).value) ∧
    Spec.weight (exOpt (some 2000) 0) exCoins (Finset.range exCoins.length) ≤ 2 ^ 24 ∧
    (Spec.weight (exOpt (some 2000) 0) exCoins (Finset.range exCoins.length) : ℚ) * (1 / 4) ≤ 2 ^ 24 ∧
    Spec.Sufficient (exOpt (some 2000) 0) exCoins {0, 1} ∧
    (exSel (some 2000) 0).selectUntilFinished.map (fun r => r.2.selected) = some {0, 1} ∧
    (exSel (some 5000) 0).selectUntilFinished.map (fun r => r.2.selected) = some {0, 1} := by
  refine ⟨?_, ?_, ?_, ?_, ?_, ?_⟩
  · decide +kernel
  · decide +kernel
  · decide +kernel
  · unfold Spec.Sufficient
    have : Spec.required (exOpt (some 2000) 0) exCoins {0, 1} = 2151 ∧ Spec.value exCoins {0, 1} = 4200 := by
      decide +kernel
    omega
  · decide +kernel
  · decide +kernel

/-- one coin that costs more than it is worth, before a good one -/
def exDust : Selector := Selector.new [⟨1, 4000, 1, false⟩, ⟨1100, 200, 1, false⟩] (exOpt (some 1000) 0)

/-- **C46, limit of the claim** in general it can miss a selection that suffices: coins are only added, and a coin that
costs more than it is worth, placed before the others, is never left out. -/
theorem C46_not_any : Spec.Sufficient exDust.opts exDust.candidates {1} ∧
    exDust.selectUntilFinished.map (fun r => r.1) = some (.error ⟨1101, 974, .targetFee⟩) := by
  constructor
  · unfold Spec.Sufficient
    have : Spec.required exDust.opts exDust.candidates {1} = 1075 ∧ Spec.value exDust.candidates {1} = 1100 := by
      decide +kernel
    omega
  · decide +kernel

theorem inRange_applyOp {s s' : Selector} {o : Selector.Op} (hin : s.InRange) (h : s.applyOp o = some s') :
    s'.InRange ∧ s'.candidates = s.candidates ∧ s'.opts = s.opts := by
  cases o with
  | select i =>
    simp only [applyOp, select] at h
    split at h
    · rename_i hi
      simp only [Option.map_some, Option.some.injEq] at h
      subst h
      refine ⟨?_, rfl, rfl⟩
      unfold InRange
      exact Finset.insert_subset (Finset.mem_range.2 hi) hin
    · cases h
  | deselect i =>
    simp only [applyOp, deselect, Option.some.injEq] at h
    subst h
    exact ⟨(Finset.erase_subset _ _).trans hin, rfl, rfl⟩
  | selectAll =>
    simp only [applyOp, selectAll, Option.some.injEq] at h
    subst h
    exact ⟨le_refl _, rfl, rfl⟩
  | untilFinished =>
    simp only [applyOp] at h
    cases hu : s.selectUntilFinished with
    | none => rw [hu] at h; cases h
    | some p =>
      rw [hu] at h
      obtain ⟨r, s1⟩ := p
      simp only [Option.map_some, Option.some.injEq] at h
      subst h
      obtain ⟨k, _, h2, _⟩ := C46_first_sufficient s s1 r hin hu
      rw [h2]
      refine ⟨?_, rfl, rfl⟩
      unfold InRange Spec.stage
      refine Finset.union_subset hin ?_
      intro i hi
      rw [List.mem_toFinset] at hi
      have := List.mem_of_mem_take hi
      rw [Finset.mem_sort] at this
      exact (Finset.mem_sdiff.1 this).1

/-- **C45** whatever sequence of calls is made on a new selector, the selected indexes are indexes of candidates, and
the candidates and options are unchanged. -/
theorem C45_in_range (cs : List WV) (o : Opt) (ops : List Selector.Op) (s : Selector)
    (h : (Selector.new cs o).run ops = some s) :
    s.candidates = cs ∧ s.opts = o ∧ s.selected ⊆ Finset.range cs.length := by
  have key : ∀ (ops : List Selector.Op) (s0 s : Selector), s0.InRange → s0.run ops = some s →
      s.InRange ∧ s.candidates = s0.candidates ∧ s.opts = s0.opts := by
    intro ops
    induction ops with
    | nil =>
      intro s0 s hin h
      simp only [Selector.run, Option.some.injEq] at h
      subst h; exact ⟨hin, rfl, rfl⟩
    | cons o os ih =>
      intro s0 s hin h
      simp only [Selector.run] at h
      cases ha : s0.applyOp o with
      | none => rw [ha] at h; cases h
      | some s1 =>
        rw [ha] at h
        obtain ⟨h1, h2, h3⟩ := inRange_applyOp hin ha
        obtain ⟨h4, h5, h6⟩ := ih s1 s h1 h
        exact ⟨h4, h5.trans h2, h6.trans h3⟩
  obtain ⟨h1, h2, h3⟩ := key ops _ s (by unfold InRange; exact Finset.empty_subset _) h
  refine ⟨h2, h3, ?_⟩
  unfold InRange at h1
  rw [h2] at h1
  exact h1

example : (Selector.new exCoins (exOpt (some 2000) 0)).run [.select 1, .deselect 1, .untilFinished] ≠ none := by
  have h : ((Selector.new exCoins (exOpt (some 2000) 0)).run [.select 1, .deselect 1, .untilFinished]).isSome = true := by
    decide +kernel
  intro hn; rw [hn] at h; cases h

/-- **C45** what the calls that change a selection do, and return, in terms of `is_selected` alone: a new selector has nothing
selected; `select` panics exactly out of range, otherwise it selects that coin and no other, and says whether it was new;
`deselect` gives up that coin and no other, and says whether it was there; `select_all` selects every candidate. -/
theorem C45_calls (s : Selector) (i : Nat) (cs : List WV) (o : Opt) :
    (∀ j, (Selector.new cs o).isSelected j = false) ∧
    (s.select i = none ↔ s.candidates.length ≤ i) ∧
    (∀ b s', s.select i = some (b, s') →
      b = !s.isSelected i ∧ s'.candidates = s.candidates ∧ s'.opts = s.opts ∧
      ∀ j, s'.isSelected j = true ↔ j = i ∨ s.isSelected j = true) ∧
    ((s.deselect i).1 = s.isSelected i ∧ (s.deselect i).2.candidates = s.candidates ∧ (s.deselect i).2.opts = s.opts ∧
      ∀ j, (s.deselect i).2.isSelected j = true ↔ j ≠ i ∧ s.isSelected j = true) ∧
    (s.selectAll.candidates = s.candidates ∧ s.selectAll.opts = s.opts ∧
      ∀ j, s.selectAll.isSelected j = true ↔ j < s.candidates.length) := by
  refine ⟨?_, ?_, ?_, ?_, ?_⟩
  · intro j; simp [Selector.new, isSelected]
  · unfold Selector.select
    by_cases h : i < s.candidates.length
    · rw [if_pos h]; simp; omega
    · rw [if_neg h]; simp; omega
  · intro b s' hs
    unfold Selector.select at hs
    by_cases h : i < s.candidates.length
    · rw [if_pos h] at hs
      simp only [Option.some.injEq, Prod.mk.injEq] at hs
      obtain ⟨rfl, rfl⟩ := hs
      refine ⟨rfl, rfl, rfl, fun j => ?_⟩
      simp [isSelected]
    · rw [if_neg h] at hs; cases hs
  · refine ⟨rfl, rfl, rfl, fun j => ?_⟩
    simp [isSelected, Selector.deselect]
  · refine ⟨rfl, rfl, fun j => ?_⟩
    simp [isSelected, Selector.selectAll]

/-- **C45** after any calls on a new selector, the views of the selection agree with `is_selected` and with the candidates:
`all_selected` holds exactly if every candidate is selected, `is_empty` exactly if none is; `selected_indexes` and
`unselected_indexes` list, in ascending order and once each, the candidates that are and that are not selected, `selected` and
`unselected` the same with the coins themselves, and `selected_count` counts the former. -/
theorem C45_accessors (cs : List WV) (o : Opt) (ops : List Selector.Op) (s : Selector)
    (h : (Selector.new cs o).run ops = some s) :
    (s.allSelected = true ↔ ∀ i < cs.length, s.isSelected i = true) ∧
    (s.isEmpty = true ↔ ∀ i < cs.length, s.isSelected i = false) ∧
    (∀ i, s.isSelected i = true → i < cs.length) ∧
    (s.selectedIndexes.Pairwise (· < ·) ∧ ∀ i, i ∈ s.selectedIndexes ↔ s.isSelected i = true) ∧
    (s.unselectedIndexes.Pairwise (· < ·) ∧
      ∀ i, i ∈ s.unselectedIndexes ↔ i < cs.length ∧ s.isSelected i = false) ∧
    (s.selectedCoins.map (·.1) = s.selectedIndexes ∧ ∀ x ∈ s.selectedCoins, cs[x.1]? = some x.2) ∧
    (s.unselected.map (·.1) = s.unselectedIndexes ∧ ∀ x ∈ s.unselected, cs[x.1]? = some x.2) ∧
    s.selectedCount = s.selectedIndexes.length ∧
    s.selectedCount + s.unselectedIndexes.length = cs.length := by
  obtain ⟨hcs, -, hin⟩ := C45_in_range cs o ops s h
  have hsel : ∀ i, s.isSelected i = true ↔ i ∈ s.selected := fun i => by simp [isSelected]
  have hnsel : ∀ i, s.isSelected i = false ↔ i ∉ s.selected := fun i => by simp [isSelected]
  have hlt : ∀ i ∈ s.selected, i < cs.length := fun i hi => Finset.mem_range.1 (hin hi)
  have hcand : ∀ i < cs.length, cs[i]? = some (s.candidate i) := by
    intro i hi
    unfold candidate
    rw [hcs, List.getD_eq_getElem?_getD, List.getElem?_eq_getElem hi, Option.getD_some]
  have hun : ∀ i, i ∈ s.unselectedIndexes ↔ i < cs.length ∧ i ∉ s.selected := by
    intro i; rw [mem_unselectedIndexes, hcs]
  have hsi : ∀ i, i ∈ s.selectedIndexes ↔ i ∈ s.selected := by
    intro i; unfold selectedIndexes; exact Finset.mem_sort _
  have hunp : s.unselectedIndexes.Pairwise (· < ·) := List.Pairwise.filter _ List.pairwise_lt_range
  refine ⟨?_, ?_, ?_, ⟨?_, ?_⟩, ⟨hunp, ?_⟩, ⟨?_, ?_⟩, ⟨?_, ?_⟩, ?_, ?_⟩
  · unfold allSelected
    rw [decide_eq_true_iff, hcs]
    constructor
    · intro hc i hi
      have : s.selected = Finset.range cs.length := Finset.eq_of_subset_of_card_le hin (by rw [Finset.card_range, hc])
      rw [hsel, this]; exact Finset.mem_range.2 hi
    · intro hall
      have : s.selected = Finset.range cs.length :=
        Finset.Subset.antisymm hin fun i hi => (hsel i).1 (hall i (Finset.mem_range.1 hi))
      rw [this, Finset.card_range]
  · unfold isEmpty
    rw [decide_eq_true_iff, Finset.eq_empty_iff_forall_notMem]
    constructor
    · intro hn i _; exact (hnsel i).2 (hn i)
    · intro hn i hi; exact (hnsel i).1 (hn i (hlt i hi)) hi
  · intro i hi; exact hlt i ((hsel i).1 hi)
  · unfold selectedIndexes; exact Finset.sortedLT_sort _ |>.pairwise
  · intro i; rw [hsi, hsel]
  · intro i; rw [hun, hnsel]
  · unfold selectedCoins; rw [List.map_map]; exact List.map_id' _
  · intro x hx
    unfold selectedCoins at hx
    obtain ⟨i, hi, rfl⟩ := List.mem_map.1 hx
    exact hcand i (hlt i ((hsi i).1 hi))
  · unfold unselected; rw [List.map_map]; exact List.map_id' _
  · intro x hx
    unfold unselected at hx
    obtain ⟨i, hi, rfl⟩ := List.mem_map.1 hx
    exact hcand i ((hun i).1 hi).1
  · unfold selectedCount selectedIndexes; rw [Finset.length_sort]
  · have hnd : s.unselectedIndexes.Nodup := hunp.imp (fun h => Nat.ne_of_lt h)
    have hf : s.unselectedIndexes.toFinset = Finset.range cs.length \ s.selected := by
      ext i
      rw [List.mem_toFinset, hun, Finset.mem_sdiff, Finset.mem_range]
    rw [← List.toFinset_card_of_nodup hnd, hf, Finset.card_sdiff_of_subset hin, Finset.card_range]
    have := Finset.card_le_card hin
    rw [Finset.card_range] at this
    unfold selectedCount
    omega

/-- the hypotheses are met by a selector on which some calls were made -/
example : (((Selector.new exCoins (exOpt (some 2000) 0)).run [.select 1, .select 0, .deselect 1]).map
    fun s => (s.unselectedIndexes, s.isSelected 0, s.allSelected, s.isEmpty)) = some ([1], true, false, false) := by
  decide +kernel

end Verif.CoinSelect
