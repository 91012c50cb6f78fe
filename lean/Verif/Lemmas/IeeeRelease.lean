import Verif.Lemmas.IeeeDebug

/-! # A release build of `finish` at an infinite rate -/

namespace Verif.CoinSelect.Ieee
open Verif Verif.CoinSelect.Machine

theorem unsigned_release_of_debug {bits n : Nat} {z : Int} (h : Build.debug.unsigned bits z = some n) :
    Build.release.unsigned bits z = some n := by
  unfold Build.unsigned at h ⊢
  split at h
  · next c => rw [if_pos c]; exact h
  · cases h

theorem sumU_release_of_debug {bits : Nat} : ∀ (l : List Nat) (acc n : Nat), Build.debug.sumU bits acc l = some n →
    Build.release.sumU bits acc l = some n
  | [], acc, n, h => h
  | x :: l, acc, n, h => by
    unfold Build.sumU at h ⊢
    obtain ⟨a, ha, h⟩ := Option.bind_eq_some_iff.1 h
    exact Option.bind_eq_some_iff.2 ⟨a, unsigned_release_of_debug ha, sumU_release_of_debug l a n h⟩

theorem selectedWeight_release_of_debug {s : Selector} {w : Nat} (h : Machine.selectedWeight .debug s = some w) :
    Machine.selectedWeight .release s = some w := by
  unfold Machine.selectedWeight at h ⊢
  exact sumU_release_of_debug _ _ _ h

theorem currentWeight_release_of_debug {s : Selector} {w : Nat} (h : Machine.currentWeight .debug s = some w) :
    Machine.currentWeight .release s = some w ∧ ∃ sw, Machine.selectedWeight .debug s = some sw := by
  unfold Machine.currentWeight at h ⊢
  obtain ⟨count, hc, h⟩ := Option.bind_eq_some_iff.1 h
  obtain ⟨sw, hs, h⟩ := Option.bind_eq_some_iff.1 h
  exact ⟨Option.bind_eq_some_iff.2 ⟨count, sumU_release_of_debug _ _ _ hc,
    Option.bind_eq_some_iff.2 ⟨sw, selectedWeight_release_of_debug hs, sumU_release_of_debug _ _ _ h⟩⟩, sw, hs⟩

theorem release_unsigned (bits : Nat) (z : Int) : Build.release.unsigned bits z = some (z % 2 ^ bits).toNat := by
  unfold Build.unsigned
  split
  · next c => rw [Int.emod_eq_of_lt c.1 c.2]
  · rfl

theorem release_i64 (z : Int) : ∃ w, Build.release.i64 z = some w := by
  cases h : Build.release.i64 z with
  | none => exact absurd h (Build.i64_release_ne z)
  | some w => exact ⟨w, rfl⟩

theorem release_max : ((2 ^ 64 - 1 : Nat) : Int) = 18446744073709551615 := by norm_num

theorem release_wrap1 {v f : Nat} (h1 : 1 ≤ v) (h2 : v < 2 ^ 64) (hf : f = 2 ^ 64 - 1) :
    Build.release.unsigned 64 ((v : Int) + f) = some (v - 1) := by
  rewrite [release_unsigned]
  have : (f : Int) = 18446744073709551615 := by rewrite [hf]; exact release_max
  generalize (f : Int) = g at this
  subst this
  refine congrArg some ?_
  omega

theorem release_wrap2 {x f : Nat} (h2 : x < 2 ^ 64 - 1) (hf : f = 2 ^ 64 - 1) :
    Build.release.unsigned 64 ((x : Int) - f) = some (x + 1) := by
  rewrite [release_unsigned]
  have : (f : Int) = 18446744073709551615 := by rewrite [hf]; exact release_max
  generalize (f : Int) = g at this
  subst this
  refine congrArg some ?_
  omega

theorem release_wrap3 {x f : Nat} (h2 : x < 2 ^ 64 - 1) (hf : f = 2 ^ 64 - 1) :
    Build.release.unsigned 64 ((f : Int) + ((x + 1 : Nat) : Int)) = some x := by
  rewrite [release_unsigned]
  have : (f : Int) = 18446744073709551615 := by rewrite [hf]; exact release_max
  generalize (f : Int) = g at this
  subst this
  refine congrArg some ?_
  omega

/-- two selectors that differ in their rates only -/
def SameButRates (s s' : Selector) : Prop :=
  s'.candidates = s.candidates ∧ s'.selected = s.selected ∧ s'.opts.targetValue = s.opts.targetValue ∧
  s'.opts.maxExtraTarget = s.opts.maxExtraTarget ∧ s'.opts.minAbsoluteFee = s.opts.minAbsoluteFee ∧
  s'.opts.baseWeight = s.opts.baseWeight ∧ s'.opts.drainWeight = s.opts.drainWeight ∧
  s'.opts.minDrainValue = s.opts.minDrainValue

/-- a release build at a rate that asks for all a `u64` holds -/
theorem finish_release_max {s s' : Selector} (hs : SameButRates s s') {r r' : Rates} {v : Nat}
    (hin : s.selected ⊆ Finset.range s.candidates.length) (ht : s.opts.targetValue = some v) (hv : 1 ≤ v)
    (hm : s.opts.minAbsoluteFee < 2 ^ 64)
    {sel0 : Selection} (h : finishR .debug r' s' = some (.ok sel0))
    (hr : r.feeU s.currentWeight = 2 ^ 64 - 1) :
    ∃ sel waste, finishR .release r s = some (.ok sel) ∧ sel.excess = s.selectedAbs - v + 1 ∧
      (Kind.toFee, (⟨some v, none, s.selectedAbs - v, s.currentWeight, waste⟩ : Strat)) ∈ sel.strategies := by
  obtain ⟨g1, g2, g3, g4, g5, g6, g7, g8⟩ := hs
  have hin' : s'.selected ⊆ Finset.range s'.candidates.length := by rw [g1, g2]; exact hin
  have hcw : ∀ b, Machine.currentWeight b s' = Machine.currentWeight b s := by
    intro b
    unfold Machine.currentWeight Machine.selectedWeight indexes Selector.candidate
    rw [g1, g2, g6]
  have hsa : ∀ b, Machine.selectedAbs b s' = Machine.selectedAbs b s := by
    intro b
    unfold Machine.selectedAbs indexes Selector.candidate
    rw [g1, g2]
  have hab : s'.selectedAbs = s.selectedAbs := by
    unfold Selector.selectedAbs Selector.candidate
    rw [g1, g2]
  have htt : s.opts.target = v := by unfold CoinSelect.Opt.target; rw [ht]; rfl
  have htt' : s'.opts.target = v := by unfold CoinSelect.Opt.target; rw [g3, ht]; rfl
  obtain ⟨-, -, k1, k2, -⟩ := finish_debug_ok hin' h
  rw [hab] at k1 k2
  rw [htt', g5] at k2
  have k3 := le_max_right (r'.feeU s'.currentWeight) s.opts.minAbsoluteFee
  unfold finishR at h
  obtain ⟨w, hw, h⟩ := Option.bind_eq_some_iff.1 h
  obtain ⟨wd, hwd, h⟩ := Option.bind_eq_some_iff.1 h
  obtain ⟨a, ha, h⟩ := Option.bind_eq_some_iff.1 h
  clear h
  rw [hcw] at hw
  rw [hsa] at ha
  rw [g7] at hwd
  have e1 := currentWeight_debug hin hw
  have e2 := selectedAbs_debug hin ha
  subst e1
  subst e2
  obtain ⟨hw', sw, hsw⟩ := currentWeight_release_of_debug hw
  have hwd' := unsigned_release_of_debug hwd
  have ha' : Machine.selectedAbs .release s = some s.selectedAbs := by
    unfold Machine.selectedAbs at ha ⊢
    exact sumU_release_of_debug _ _ _ ha
  have hsw' : selectedWaste .release r s = some (r.waste sw) := by
    unfold selectedWaste
    rw [selectedWeight_release_of_debug hsw]; rfl
  have hsf : shortfalls .release s s.selectedAbs (r.feeU s.currentWeight) (r.feeU wd) =
      some [(.targetValue, 0), (.targetFee, 0), (.minAbsoluteFee, 0), (.minDrainValue, 0)] := by
    unfold shortfalls
    refine Option.bind_eq_some_iff.2 ⟨v - 1, ?_, Option.bind_eq_some_iff.2 ⟨v + s.opts.minAbsoluteFee, ?_, ?_⟩⟩
    · rewrite [htt]
      exact release_wrap1 hv (by omega) hr
    · rewrite [release_unsigned, htt]
      refine congrArg some ?_
      omega
    · rw [ht]
      refine Option.map_eq_some_iff.2 ⟨0, rfl, ?_⟩
      rewrite [htt, Nat.sub_eq_zero_of_le (by omega : v ≤ _), Nat.sub_eq_zero_of_le (by omega : v - 1 ≤ _),
        Nat.sub_eq_zero_of_le (by omega : v + s.opts.minAbsoluteFee ≤ _)]
      exact rfl
  have hmax : max (r.feeU s.currentWeight) s.opts.minAbsoluteFee = 2 ^ 64 - 1 := by
    rewrite [hr]
    exact Nat.max_eq_left (by omega)
  obtain ⟨waste1, hw1⟩ := release_i64 (r.waste sw + SpkIndex.asI64 (s.selectedAbs - v + 1))
  have hnd : ∀ f : Nat, f = 2 ^ 64 - 1 → ∃ l, noDrainStrategies .release s f (s.selectedAbs - v + 1) s.currentWeight (r.waste sw) = some l ∧
      (Kind.toFee, (⟨some v, none, s.selectedAbs - v, s.currentWeight, waste1⟩ : Strat)) ∈ l := by
    intro f hf
    unfold noDrainStrategies
    rw [ht]
    simp only
    have hfee := release_wrap3 (x := s.selectedAbs - v) (f := f) (by omega) hf
    rw [hfee, hw1]
    simp only [Option.bind_some]
    split
    · simp only [release_unsigned, Option.bind_some]
      obtain ⟨w2, hw2⟩ := release_i64 (r.waste sw + SpkIndex.asI64
        ((((s.selectedAbs - v + 1 : Nat) : Int) - (min s.opts.maxExtraTarget (s.selectedAbs - v + 1) : Nat)) % 2 ^ 64).toNat)
      rw [hw2]
      exact ⟨_, rfl, List.mem_cons_self⟩
    · exact ⟨_, rfl, List.mem_cons_self⟩
  obtain ⟨l1, hl1, hmem⟩ := hnd _ hmax
  have hdr : ∀ fee imo, ∃ l2, drainStrategies .release r s fee imo wd (r.waste sw) = some l2 := by
    intro fee imo
    unfold drainStrategies
    rw [release_unsigned]
    simp only [Option.bind_some]
    obtain ⟨w3, hw3⟩ := release_i64 (r.waste sw + r.drainWaste)
    rw [hw3]
    split
    · split
      · exact ⟨_, rfl⟩
      · exact ⟨_, rfl⟩
    · exact ⟨_, rfl⟩
  obtain ⟨l2, hl2⟩ := hdr (max (r.feeU wd) s.opts.minAbsoluteFee) (s.selectedAbs - v)
  refine ⟨{ selected := s.selected, excess := s.selectedAbs - v + 1, strategies := l1 ++ l2 }, waste1, ?_, rfl,
    List.mem_append_left _ hmem⟩
  unfold finishR
  refine Option.bind_eq_some_iff.2 ⟨_, hw', Option.bind_eq_some_iff.2 ⟨_, hwd', Option.bind_eq_some_iff.2 ⟨_, ha',
    Option.bind_eq_some_iff.2 ⟨_, hsf, ?_⟩⟩⟩⟩
  have hfl : ([(.targetValue, 0), (.targetFee, 0), (.minAbsoluteFee, 0), (.minDrainValue, 0)] : List (Constraint × Nat)).filter
      (fun x => decide (0 < x.2)) = [] := by decide
  rw [hfl]
  refine Option.bind_eq_some_iff.2 ⟨s.selectedAbs - v, ?_, Option.bind_eq_some_iff.2 ⟨s.selectedAbs - v + 1, ?_,
    Option.bind_eq_some_iff.2 ⟨_, hsw', Option.bind_eq_some_iff.2 ⟨l1, ?_, Option.bind_eq_some_iff.2 ⟨l2, hl2, ?_⟩⟩⟩⟩⟩
  · rewrite [release_unsigned, htt]
    refine congrArg some ?_
    omega
  · exact release_wrap2 (by omega) hmax
  · exact hl1
  · exact if_neg (by rintro ⟨h, -⟩; cases h)

end Verif.CoinSelect.Ieee
