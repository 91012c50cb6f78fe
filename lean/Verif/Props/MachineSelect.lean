import Verif.Lemmas.MachineSelect3
import Verif.Props.Fee

/-!
# Property C68: the coin selector on machine integers

`Machine.f b` is the function `f` as compiled with build profile `b` (Model/MachineSelect); `Spec.Fits` bounds rates, weights and
amounts (Spec/MachineSelect).  Selectors built by the API are in range (`C45_in_range`).
-/

namespace Verif.CoinSelect
open Verif Verif.Build

/-- **C68** within the bounds every quantity a selector reports is the exact one in either build: nothing overflows or saturates -/
theorem C68_quantities (b : Build) (s : Selector) (hf : Spec.Fits s.opts s.candidates)
    (hin : s.selected ⊆ Finset.range s.candidates.length) :
    Machine.selectedWeight b s = some s.selectedWeight ∧ Machine.selectedAbs b s = some s.selectedAbs ∧
    Machine.selectedEff b s = some s.selectedEff ∧ Machine.selectedWaste b s = some s.selectedWaste ∧
    Machine.currentWeight b s = some s.currentWeight ∧ Machine.effectiveTarget b s = some s.effectiveTarget ∧
    Machine.currentExcess b s = some s.currentExcess ∧ Machine.drainWaste s.opts = s.opts.drainWaste :=
  ⟨Machine.selectedWeight_fits b hf hin, Machine.selectedAbs_fits b hf hin, Machine.selectedEff_fits b hf hin,
    Machine.selectedWaste_fits b hf hin, Machine.currentWeight_fits b hf hin, Machine.effectiveTarget_fits b hf,
    Machine.currentExcess_fits b hf hin, Machine.drainWaste_fits hf⟩

/-- **C68** within the bounds `finish` returns, in either build, what C45 says; only where C45 has a panic (no way to use the excess,
`C45_panic_iff`) does a release build, which has no `debug_assert!`, return a selection without any strategy instead: on it
`best_strategy` panics -/
theorem C68_finish (s : Selector) (hf : Spec.Fits s.opts s.candidates) (hin : s.selected ⊆ Finset.range s.candidates.length) :
    (∀ b r, s.finish = some r → Machine.finish b s = some r) ∧
    (s.finish = none → Machine.finish .debug s = none ∧
      ∃ sel, Machine.finish .release s = some (.ok sel) ∧ sel.selected = s.selected ∧ sel.strategies = [] ∧
        ∀ order : List (Kind × Strat), order.Perm sel.strategies → Selection.bestStrategy order = none) := by
  refine ⟨fun b r h => Machine.finish_some b hf hin h, fun h => ?_⟩
  have h1 := Machine.finish_fits .debug hf hin
  have h2 := Machine.finish_fits .release hf hin
  rw [h] at h1 h2
  refine ⟨h1, _, h2, rfl, rfl, fun order ho => ?_⟩
  rw [List.perm_nil.1 ho]; rfl

/-- **C68** within the bounds `select_until_finished` does, in either build, what C46 says -/
theorem C68_until (s : Selector) (hf : Spec.Fits s.opts s.candidates) (hin : s.selected ⊆ Finset.range s.candidates.length) :
    (∀ b r, s.selectUntilFinished = some r → Machine.selectUntilFinished b s = some r) ∧
    (s.selectUntilFinished = none → Machine.selectUntilFinished .debug s = none) :=
  ⟨fun b _ h => Machine.until_some b hf hin h, fun h => by rw [Machine.until_debug hf hin]; exact h⟩

/-- **C68** within the bounds `coin_select_bnb` returns, in either build, what C47 and C48 say: no sum of its search overflows, and
no score reaches the `i64::MAX` it starts from -/
theorem C68_bnb (b : Build) (s : Selector) (hf : Spec.Fits s.opts s.candidates)
    (hin : s.selected ⊆ Finset.range s.candidates.length) (sort : List (Nat × WV) → List (Nat × WV))
    (hs : ValidSort s.opts.targetFeerate sort) (rounds : Nat) :
    Machine.coinSelectBnb b sort rounds s = coinSelectBnb sort rounds s :=
  Machine.bnb_fits b hf hin hs rounds

/-- **C68** whatever the sizes: a debug build reports the exact value and weight of the selected coins or panics, exactly if they do
not fit in a `u64` or a `u32`; a release build reports them modulo 2^64 and 2^32 -/
theorem C68_sums (s : Selector) (hin : s.selected ⊆ Finset.range s.candidates.length) :
    Machine.selectedAbs .debug s = (if s.selectedAbs < 2 ^ 64 then some s.selectedAbs else none) ∧
    Machine.selectedAbs .release s = some (s.selectedAbs % 2 ^ 64) ∧
    Machine.selectedWeight .debug s = (if s.selectedWeight < 2 ^ 32 then some s.selectedWeight else none) ∧
    Machine.selectedWeight .release s = some (s.selectedWeight % 2 ^ 32) := by
  have e1 : ((Machine.indexes s).map fun i => (s.candidate i).value).sum = s.selectedAbs := Machine.sum_indexes hin _
  have e2 : ((Machine.indexes s).map fun i => (s.candidate i).weight).sum = s.selectedWeight := Machine.sum_indexes hin _
  unfold Machine.selectedAbs Machine.selectedWeight
  rw [sumU_debug _ _ (by norm_num), sumU_debug _ _ (by norm_num), sumU_release _ _ (by norm_num),
    sumU_release _ _ (by norm_num), e1, e2]
  simp only [Nat.zero_add, and_self]

/-! ### Concrete cases -/

/-- the selectors of C45, C47 and C66 are within the bounds -/
example : Spec.Fits (exSel (some 500) 0).opts (exSel (some 500) 0).candidates ∧ Spec.Fits (exBnb none).opts (exBnb none).candidates ∧
    Spec.Fits exShort.opts exShort.candidates ∧ (exSel (some 500) 0).selected ⊆ Finset.range (exSel (some 500) 0).candidates.length := by
  refine ⟨⟨?_, ?_, ?_, ?_, ?_⟩, ⟨?_, ?_, ?_, ?_, ?_⟩, ⟨?_, ?_, ?_, ?_, ?_⟩, ?_⟩ <;> decide +kernel

/-- and both builds return the same -/
example : Machine.finish .debug (exSel (some 500) 0) = (exSel (some 500) 0).finish ∧
    Machine.finish .release (exSel (some 500) 0) = (exSel (some 500) 0).finish ∧
    (exSel (some 500) 0).finish.isSome = true ∧
    (Machine.coinSelectBnb .release (exSort (1 / 4)) 64 (exBnb none)).map (fun r => r.map (·.selected)) = some (some {0, 3}) := by
  refine ⟨?_, ?_, ?_, ?_⟩ <;> decide +kernel

/-- **C68 (finding)** the sweep of `C45_panic_reachable`, in a release build: `finish` accepts the selection, offers no way to use it,
and `best_strategy` panics -/
theorem C68_release_empty : Machine.finish .debug (exSel none 1000) = none ∧
    ∃ sel, Machine.finish .release (exSel none 1000) = some (.ok sel) ∧ sel.strategies = [] ∧
      Selection.bestStrategy sel.strategies = none := by
  have h : Machine.finish .release (exSel none 1000) = some (.ok ⟨{0}, 200, []⟩) := by decide +kernel
  exact ⟨by decide +kernel, _, h, rfl, rfl⟩

/-- a target of 2^64 - 1 satoshis and a coin worth as much -/
def exAbsurd : Selector := ⟨{ exOpt (some (2 ^ 64 - 1)) 0 with maxExtraTarget := 0 }, [⟨2 ^ 64 - 1, 200, 1, true⟩], {0}⟩

/-- **C68 (finding)** beyond the bounds a release build accepts what does not suffice: with a coin of 2^64 - 1 satoshis and a target of
as much, which leaves nothing for the fee of 76 satoshis, `finish` reports success with a fee of 0 (a debug build panics) -/
theorem C68_wraps : Machine.finish .debug exAbsurd = none ∧
    (∃ sel, Machine.finish .release exAbsurd = some (.ok sel) ∧
      (Kind.toFee, (⟨some (2 ^ 64 - 1), none, 0, 302, -76⟩ : Strat)) ∈ sel.strategies) ∧
    exAbsurd.finish = some (.error ⟨2 ^ 64 - 1, 76, .targetFee⟩) := by
  have h : (Machine.finish .release exAbsurd).map (fun r => match r with
      | .ok sel => decide ((Kind.toFee, (⟨some (2 ^ 64 - 1), none, 0, 302, -76⟩ : Strat)) ∈ sel.strategies)
      | .error _ => false) = some true := by decide +kernel
  refine ⟨by decide +kernel, ?_, by decide +kernel⟩
  cases hm : Machine.finish .release exAbsurd with
  | none => rw [hm] at h; cases h
  | some r =>
    rw [hm] at h
    cases r with
    | error e => cases h
    | ok sel =>
      simp only [Option.map_some, Option.some.injEq, decide_eq_true_eq] at h
      exact ⟨sel, rfl, h⟩

end Verif.CoinSelect
