import Mathlib.Algebra.BigOperators.Group.Finset.Basic
import Mathlib.Data.Rat.Floor
import Mathlib.Data.Finset.Sort
import Mathlib.Data.Finset.Range
import Verif.Model.Float32

/-!
# Model of bdk_coin_select: `CoinSelector`, `CoinSelectorOpt`, `Selection` (bdk_coin_select/src/coin_selector.rs)

A debug build: `none` is a panic (failed `assert!`/`debug_assert!`, unsigned underflow, `expect`).

Simplifications, here and in Model/Bnb:
* a feerate (`f32`) is the rational number it stands for; `n as f32`, `*`, `+` and `-` are the exact operation followed by
  rounding to `f32` (Model/Float32: round to nearest, ties to even, subnormals); infinities and NaN are not modelled;
  `ceil`, truncation by `as` and saturation of negative floats at 0 by `as u64` are modelled, saturation at the largest
  integer is in Model/MachineSelect only;
* `u64`/`u32`/`usize` sums are natural numbers and `i64` sums integers: overflow of a sum is modelled
  in Model/MachineSelect only (underflow of a subtraction is modelled here too).
-/

namespace Verif.CoinSelect

/-- coin_selector.rs:6-18 `WeightedValue` -/
structure WV where
  value : Nat
  weight : Nat
  inputCount : Nat
  isSegwit : Bool
deriving DecidableEq, Repr, Inhabited

/-- lib.rs:26 `TXIN_BASE_WEIGHT` -/
def txinBaseWeight : Nat := (32 + 4 + 4) * 4

/-- lib.rs:31-33 `varint_size`: length of the Bitcoin variable-length integer encoding -/
def varintSize (v : Nat) : Nat :=
  if v < 0xFD then 1 else if v ≤ 0xFFFF then 3 else if v ≤ 0xFFFFFFFF then 5 else 9

/-- `weight as f32 * rate` -/
def mulF (w : Nat) (rate : ℚ) : ℚ := f32 (f32 w * rate)

/-- `(weight as f32 * rate).ceil() as i64` -/
def feeI (w : Nat) (rate : ℚ) : Int := ⌈mulF w rate⌉

/-- `(weight as f32 * rate).ceil() as u64`: negative floats saturate at 0 -/
def feeU (w : Nat) (rate : ℚ) : Nat := ⌈mulF w rate⌉.toNat

/-- `x as i64` for a float: truncation towards zero -/
def truncI (x : ℚ) : Int := if 0 ≤ x then ⌊x⌋ else ⌈x⌉

/-- `x as u64` for a float: truncation, negative floats saturate at 0 -/
def truncU (x : ℚ) : Nat := ⌊x⌋.toNat

/-- coin_selector.rs:25-33 `WeightedValue::new` -/
def WV.new (value satisfactionWeight : Nat) (isSegwit : Bool) : WV :=
  { value, weight := txinBaseWeight + satisfactionWeight, inputCount := 1, isSegwit }

/-- coin_selector.rs:36-41 `effective_value` -/
def WV.eff (c : WV) (rate : ℚ) : Int := (c.value : Int) - feeI c.weight rate

/-- coin_selector.rs:44-69 `CoinSelectorOpt` -/
structure Opt where
  targetValue : Option Nat
  maxExtraTarget : Nat
  targetFeerate : ℚ
  longTermFeerate : Option ℚ
  minAbsoluteFee : Nat
  baseWeight : Nat
  drainWeight : Nat
  spendDrainWeight : Nat
  minDrainValue : Nat
deriving Repr

namespace Opt
/-- coin_selector.rs:121-123 `long_term_feerate` -/
def longTerm (o : Opt) : ℚ := o.longTermFeerate.getD o.targetFeerate

/-- coin_selector.rs:125-128 `drain_waste` -/
def drainWaste (o : Opt) : Int :=
  truncI (f32 (mulF o.drainWeight o.targetFeerate + mulF o.spendDrainWeight o.longTerm))

/-- `self.opts.target_value.unwrap_or(0)` -/
def target (o : Opt) : Nat := o.targetValue.getD 0

/-- coin_selector.rs:72-90 `from_weights` -/
def fromWeights (baseWeight drainWeight spendDrainWeight : Nat) : Opt :=
  { targetValue := none, maxExtraTarget := 0, targetFeerate := 1 / 4, longTermFeerate := none,
    minAbsoluteFee := 0, baseWeight, drainWeight, spendDrainWeight,
    minDrainValue := 3 * truncU (mulF (drainWeight + spendDrainWeight) (1 / 4)) }
end Opt

/-- coin_selector.rs:133-138 `CoinSelector` -/
structure Selector where
  opts : Opt
  candidates : List WV
  selected : Finset Nat

namespace Selector

/-- coin_selector.rs:141-143 `candidate`.  The code indexes (and would panic out of range); every selector built by
the API only selects indexes in range (`C45_in_range`), so the default is never used for a selected index. -/
def candidate (s : Selector) (i : Nat) : WV := s.candidates.getD i default

/-- coin_selector.rs:145-151 `new` -/
def new (candidates : List WV) (opts : Opt) : Selector := { opts, candidates, selected := ∅ }

/-- coin_selector.rs:153-156 `select`; `none` = the `assert!` fails -/
def select (s : Selector) (i : Nat) : Option (Bool × Selector) :=
  if i < s.candidates.length then
    some (!decide (i ∈ s.selected), { s with selected := insert i s.selected })
  else none

/-- coin_selector.rs:158-160 `deselect` -/
def deselect (s : Selector) (i : Nat) : Bool × Selector :=
  (decide (i ∈ s.selected), { s with selected := s.selected.erase i })

/-- coin_selector.rs:162-164 `is_selected` -/
def isSelected (s : Selector) (i : Nat) : Bool := decide (i ∈ s.selected)

/-- coin_selector.rs:166-168 `is_empty` -/
def isEmpty (s : Selector) : Bool := decide (s.selected = ∅)

/-- coin_selector.rs:171-176 `selected_weight` -/
def selectedWeight (s : Selector) : Nat := ∑ i ∈ s.selected, (s.candidate i).weight

/-- coin_selector.rs:179-184 `selected_effective_value` -/
def selectedEff (s : Selector) : Int := ∑ i ∈ s.selected, (s.candidate i).eff s.opts.targetFeerate

/-- coin_selector.rs:187-192 `selected_absolute_value` -/
def selectedAbs (s : Selector) : Nat := ∑ i ∈ s.selected, (s.candidate i).value

/-- coin_selector.rs:195-198 `selected_waste` -/
def selectedWaste (s : Selector) : Int :=
  truncI (mulF s.selectedWeight (f32 (s.opts.targetFeerate - s.opts.longTerm)))

/-- coin_selector.rs:201-216 `current_weight` -/
def currentWeight (s : Selector) : Nat :=
  s.opts.baseWeight + s.selectedWeight
    + (if ∃ i ∈ s.selected, (s.candidate i).isSegwit = true then 2 else 0)
    + (varintSize (∑ i ∈ s.selected, (s.candidate i).inputCount) - 1) * 4

/-- coin_selector.rs:224-239 `effective_target` -/
def effectiveTarget (s : Selector) : Int :=
  let hasSegwit := s.candidates.any (·.isSegwit)
  let maxInputCount := (s.candidates.map (·.inputCount)).sum
  let w := s.opts.baseWeight + (if hasSegwit then 2 else 0) + (varintSize maxInputCount - 1) * 4
  (s.opts.target : Int) + feeI w s.opts.targetFeerate

/-- coin_selector.rs:219-221 `current_excess` -/
def currentExcess (s : Selector) : Int := s.selectedEff - s.effectiveTarget

/-- coin_selector.rs:240-242 `selected_count` -/
def selectedCount (s : Selector) : Nat := s.selected.card

/-- coin_selector.rs:257-259 `selected_indexes`: a `BTreeSet` iterates in ascending order -/
def selectedIndexes (s : Selector) : List Nat := s.selected.sort (· ≤ ·)

/-- coin_selector.rs:244-248 `selected` -/
def selectedCoins (s : Selector) : List (Nat × WV) := s.selectedIndexes.map fun i => (i, s.candidate i)

/-- coin_selector.rs:261-263 `unselected_indexes` (ascending) -/
def unselectedIndexes (s : Selector) : List Nat :=
  (List.range s.candidates.length).filter fun i => !decide (i ∈ s.selected)

/-- coin_selector.rs:250-255 `unselected` (ascending) -/
def unselected (s : Selector) : List (Nat × WV) := s.unselectedIndexes.map fun i => (i, s.candidate i)

/-- coin_selector.rs:265-267 `all_selected` -/
def allSelected (s : Selector) : Bool := decide (s.selected.card = s.candidates.length)

/-- coin_selector.rs:269-271 `select_all` -/
def selectAll (s : Selector) : Selector := { s with selected := Finset.range s.candidates.length }

end Selector

/-- coin_selector.rs:444-453 `SelectionConstraint` -/
inductive Constraint where
  | targetValue | targetFee | minAbsoluteFee | minDrainValue
deriving DecidableEq, Repr

/-- coin_selector.rs:419-423 `SelectionError` -/
structure SelErr where
  selected : Nat
  missing : Nat
  constraint : Constraint
deriving DecidableEq, Repr

/-- coin_selector.rs:475-479 `ExcessStrategyKind` -/
inductive Kind where
  | toFee | toRecipient | toDrain
deriving DecidableEq, Repr

/-- coin_selector.rs:482-488 `ExcessStrategy` -/
structure Strat where
  recipientValue : Option Nat
  drainValue : Option Nat
  fee : Nat
  weight : Nat
  waste : Int
deriving DecidableEq, Repr

/-- coin_selector.rs:468-472 `Selection`; the hash map of strategies is a list of entries with distinct keys (in
insertion order; a consumer that iterates it takes the iteration order as a parameter) -/
structure Selection where
  selected : Finset Nat
  excess : Nat
  strategies : List (Kind × Strat)
deriving DecidableEq

/-- `Iterator::max_by_key`: the last of the maximal elements -/
def maxByKey {α : Type} (key : α → Nat) : List α → Option α
  | [] => none
  | x :: xs =>
    some (xs.foldl (fun best y => if key best ≤ key y then y else best) x)

/-- `Iterator::min_by_key`: the first of the minimal elements -/
def minByKey {α : Type} (key : α → Int) : List α → Option α
  | [] => none
  | x :: xs =>
    some (xs.foldl (fun best y => if key y < key best then y else best) x)

/-- checked `u64` subtraction; `none` = underflow panic -/
def subU (a b : Nat) : Option Nat := if b ≤ a then some (a - b) else none

namespace Selector

/-- coin_selector.rs:308-333: the array of constraints with what is missing for each -/
def shortfalls (s : Selector) (feeWithoutDrain feeWithDrain : Nat) : List (Constraint × Nat) :=
  let target := s.opts.target
  let selected := s.selectedAbs
  [ (.targetValue, target - selected),
    (.targetFee, (target + feeWithoutDrain) - selected),
    (.minAbsoluteFee, (target + s.opts.minAbsoluteFee) - selected),
    (.minDrainValue, if s.opts.targetValue.isNone then (feeWithDrain + s.opts.minDrainValue) - selected else 0) ]

/-- coin_selector.rs:360-390: the strategies without a drain output -/
def noDrainStrategies (s : Selector) (fee excess weight : Nat) (inputWaste : Int) : List (Kind × Strat) :=
  match s.opts.targetValue with
  | none => []
  | some v =>
    (Kind.toFee, { recipientValue := some v, drainValue := none, fee := fee + excess, weight,
                   waste := inputWaste + excess }) ::
    (if 0 < excess ∧ 0 < s.opts.maxExtraTarget then
      let extra := min s.opts.maxExtraTarget excess
      [(Kind.toRecipient, { recipientValue := some (v + extra), drainValue := none, fee := fee + (excess - extra),
                            weight, waste := inputWaste + ((excess - extra : Nat) : Int) })]
    else [])

/-- coin_selector.rs:393-406: the strategy with a drain output -/
def drainStrategies (s : Selector) (fee imo weight : Nat) (inputWaste : Int) : List (Kind × Strat) :=
  if s.opts.minAbsoluteFee ≤ fee ∧ fee + s.opts.minDrainValue ≤ imo then
    [(Kind.toDrain, { recipientValue := s.opts.targetValue, drainValue := some (imo - fee), fee, weight,
                      waste := inputWaste + s.opts.drainWaste })]
  else []

/-- coin_selector.rs:294-417 `finish` (outer `none` = panic) -/
def finish (s : Selector) : Option (Except SelErr Selection) :=
  let weightWithoutDrain := s.currentWeight
  let weightWithDrain := weightWithoutDrain + s.opts.drainWeight
  let feeWithoutDrain := feeU weightWithoutDrain s.opts.targetFeerate
  let feeWithDrain := feeU weightWithDrain s.opts.targetFeerate
  match maxByKey (·.2) ((s.shortfalls feeWithoutDrain feeWithDrain).filter fun x => decide (0 < x.2)) with
  | some (c, missing) => some (.error { selected := s.selectedAbs, missing, constraint := c })
  | none =>
    (subU s.selectedAbs s.opts.target).bind fun imo =>
    let feeWithoutDrain := max feeWithoutDrain s.opts.minAbsoluteFee
    let feeWithDrain := max feeWithDrain s.opts.minAbsoluteFee
    (subU imo feeWithoutDrain).bind fun excess =>
    let strategies := s.noDrainStrategies feeWithoutDrain excess weightWithoutDrain s.selectedWaste
      ++ s.drainStrategies feeWithDrain imo weightWithDrain s.selectedWaste
    if strategies = [] then none
    else some (.ok { selected := s.selected, excess, strategies })

/-- coin_selector.rs:282-289: the loop of `select_until_finished` -/
def untilLoop (s : Selector) (r : Except SelErr Selection) :
    List Nat → Option (Except SelErr Selection × Selector)
  | [] => some (r, s)
  | i :: rest =>
    (s.select i).bind fun (_, s') =>
    s'.finish.bind fun r' =>
    match r' with
    | .ok x => some (.ok x, s')
    | .error e => untilLoop s' (.error e) rest

/-- coin_selector.rs:273-292 `select_until_finished` -/
def selectUntilFinished (s : Selector) : Option (Except SelErr Selection × Selector) :=
  s.finish.bind fun r =>
  match r with
  | .ok x => some (.ok x, s)
  | .error e => untilLoop s (.error e) s.unselectedIndexes

end Selector

/-- coin_selector.rs:500-505 `best_strategy`: `order` is the iteration order of the hash map;
`none` = the `expect` panics -/
def Selection.bestStrategy (order : List (Kind × Strat)) : Option (Kind × Strat) :=
  minByKey (·.2.waste) order

/-- coin_selector.rs:521-524 `feerate` (`none` = infinite or not a number: the weight is 0) -/
def Strat.feerate (st : Strat) : Option ℚ :=
  if st.weight = 0 then none else some (f32 (f32 st.fee / f32 st.weight))

/-- The calls a user of the selector can make (with unchanged candidates and options). -/
inductive Selector.Op where
  | select (i : Nat) | deselect (i : Nat) | selectAll | untilFinished

/-- one call; `none` = panic -/
def Selector.applyOp (s : Selector) : Selector.Op → Option Selector
  | .select i => (s.select i).map (·.2)
  | .deselect i => some (s.deselect i).2
  | .selectAll => some s.selectAll
  | .untilFinished => s.selectUntilFinished.map (·.2)

/-- a sequence of calls -/
def Selector.run (s : Selector) : List Selector.Op → Option Selector
  | [] => some s
  | o :: os => (s.applyOp o).bind fun s' => s'.run os

end Verif.CoinSelect
