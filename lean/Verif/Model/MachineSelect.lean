import Verif.Model.Machine
import Verif.Model.Bnb

/-!
# The coin selector on machine integers (bdk_coin_select)

The functions of Model/CoinSelect and Model/Bnb as compiled: weights are `u32`, amounts `u64`, effective values and scores `i64`,
counts `usize` (64 bits); sums overflow by panicking (debug build) or wrapping around (release build); `as` casts of floats
saturate at both ends; a `debug_assert!` is only in a debug build.  `none` is a panic.  (A float product too large for an `f32`
is infinite in the code and a number of at least 2^128 here: both saturate.)
-/

namespace Verif.CoinSelect.Machine
open Verif

/-- `x as i64` of a float with the integral value `z` -/
def satI (z : Int) : Int := max (-2 ^ 63) (min z (2 ^ 63 - 1))

/-- `x as u64` of a float with the integral value `z` -/
def satU (z : Int) : Nat := (max 0 (min z (2 ^ 64 - 1))).toNat

/-- `(weight as f32 * rate).ceil() as i64` -/
def feeI (w : Nat) (rate : ℚ) : Int := satI ⌈mulF w rate⌉

/-- `(weight as f32 * rate).ceil() as u64` -/
def feeU (w : Nat) (rate : ℚ) : Nat := satU ⌈mulF w rate⌉

variable (b : Build)

/-- coin_selector.rs:36-41 `effective_value` -/
def eff (c : WV) (rate : ℚ) : Option Int := b.i64 (SpkIndex.asI64 c.value - feeI c.weight rate)

/-- coin_selector.rs:125-128 `drain_waste` -/
def drainWaste (o : Opt) : Int :=
  satI (truncI (f32 (mulF o.drainWeight o.targetFeerate + mulF o.spendDrainWeight o.longTerm)))

/-- the selected indexes in ascending order, as a `BTreeSet` iterates (`selectedIndexes` for a selector in range, `C45_in_range`;
in a form the kernel can evaluate) -/
def indexes (s : Selector) : List Nat := (List.range s.candidates.length).filter fun i => decide (i ∈ s.selected)

/-- coin_selector.rs:171-176 `selected_weight` -/
def selectedWeight (s : Selector) : Option Nat := b.sumU 32 0 ((indexes s).map fun i => (s.candidate i).weight)

/-- a sum of effective values, each computed when it is added -/
def sumEff (rate : ℚ) : Int → List WV → Option Int
  | acc, [] => some acc
  | acc, c :: l => (eff b c rate).bind fun e => (b.i64 (acc + e)).bind fun a => sumEff rate a l

/-- coin_selector.rs:179-184 `selected_effective_value` -/
def selectedEff (s : Selector) : Option Int := sumEff b s.opts.targetFeerate 0 ((indexes s).map s.candidate)

/-- coin_selector.rs:187-192 `selected_absolute_value` -/
def selectedAbs (s : Selector) : Option Nat := b.sumU 64 0 ((indexes s).map fun i => (s.candidate i).value)

/-- coin_selector.rs:195-198 `selected_waste` -/
def selectedWaste (s : Selector) : Option Int :=
  (selectedWeight b s).map fun w => satI (truncI (mulF w (f32 (s.opts.targetFeerate - s.opts.longTerm))))

/-- coin_selector.rs:201-216 `current_weight` (`varint_size` is at most 9: that part cannot overflow) -/
def currentWeight (s : Selector) : Option Nat :=
  let header := if (indexes s).any (fun i => (s.candidate i).isSegwit) then 2 else 0
  (b.sumU 64 0 ((indexes s).map fun i => (s.candidate i).inputCount)).bind fun count =>
  (selectedWeight b s).bind fun w =>
  b.sumU 32 s.opts.baseWeight [w, header, (varintSize count - 1) * 4]

/-- coin_selector.rs:224-239 `effective_target` -/
def effectiveTarget (s : Selector) : Option Int :=
  (b.sumU 64 0 (s.candidates.map (·.inputCount))).bind fun count =>
  (b.sumU 32 s.opts.baseWeight [if s.candidates.any (·.isSegwit) then 2 else 0, (varintSize count - 1) * 4]).bind fun w =>
  b.i64 (SpkIndex.asI64 s.opts.target + feeI w s.opts.targetFeerate)

/-- coin_selector.rs:219-221 `current_excess` -/
def currentExcess (s : Selector) : Option Int :=
  (selectedEff b s).bind fun e => (effectiveTarget b s).bind fun t => b.i64 (e - t)

/-- coin_selector.rs:308-333: the constraints -/
def shortfalls (s : Selector) (selected feeWithoutDrain feeWithDrain : Nat) : Option (List (Constraint × Nat)) :=
  (b.unsigned 64 ((s.opts.target : Int) + feeWithoutDrain)).bind fun x =>
  (b.unsigned 64 ((s.opts.target : Int) + s.opts.minAbsoluteFee)).bind fun y =>
  (if s.opts.targetValue.isNone then (b.unsigned 64 ((feeWithDrain : Int) + s.opts.minDrainValue)).map (· - selected)
    else some 0).map fun z =>
  [ (.targetValue, s.opts.target - selected), (.targetFee, x - selected), (.minAbsoluteFee, y - selected), (.minDrainValue, z) ]

/-- coin_selector.rs:360-390: the strategies without a drain output -/
def noDrainStrategies (s : Selector) (fee excess weight : Nat) (inputWaste : Int) : Option (List (Kind × Strat)) :=
  match s.opts.targetValue with
  | none => some []
  | some v =>
    (b.unsigned 64 ((fee : Int) + excess)).bind fun fee1 =>
    (b.i64 (inputWaste + SpkIndex.asI64 excess)).bind fun waste1 =>
    let toFee := (Kind.toFee, ({ recipientValue := some v, drainValue := none, fee := fee1, weight, waste := waste1 } : Strat))
    if 0 < excess ∧ 0 < s.opts.maxExtraTarget then
      let extra := min s.opts.maxExtraTarget excess
      (b.unsigned 64 ((excess : Int) - extra)).bind fun extraFee =>
      (b.unsigned 64 ((v : Int) + extra)).bind fun v2 =>
      (b.unsigned 64 ((fee : Int) + extraFee)).bind fun fee2 =>
      (b.i64 (inputWaste + SpkIndex.asI64 extraFee)).map fun waste2 =>
      [toFee, (Kind.toRecipient, { recipientValue := some v2, drainValue := none, fee := fee2, weight, waste := waste2 })]
    else some [toFee]

/-- coin_selector.rs:393-406: the strategy with a drain output (the right operand of `&&` is only evaluated if the left one holds) -/
def drainStrategies (s : Selector) (fee imo weight : Nat) (inputWaste : Int) : Option (List (Kind × Strat)) :=
  if s.opts.minAbsoluteFee ≤ fee then
    (b.unsigned 64 ((fee : Int) + s.opts.minDrainValue)).bind fun x =>
    if x ≤ imo then
      (b.i64 (inputWaste + drainWaste s.opts)).map fun waste =>
      [(Kind.toDrain, { recipientValue := s.opts.targetValue, drainValue := some (imo - fee), fee, weight, waste })]
    else some []
  else some []

/-- coin_selector.rs:294-417 `finish` -/
def finish (s : Selector) : Option (Except SelErr Selection) :=
  (currentWeight b s).bind fun weightWithoutDrain =>
  (b.unsigned 32 ((weightWithoutDrain : Int) + s.opts.drainWeight)).bind fun weightWithDrain =>
  let feeWithoutDrain := feeU weightWithoutDrain s.opts.targetFeerate
  let feeWithDrain := feeU weightWithDrain s.opts.targetFeerate
  (selectedAbs b s).bind fun selected =>
  (shortfalls b s selected feeWithoutDrain feeWithDrain).bind fun constraints =>
  match maxByKey (·.2) (constraints.filter fun x => decide (0 < x.2)) with
  | some (c, missing) => some (.error { selected, missing, constraint := c })
  | none =>
    (b.unsigned 64 ((selected : Int) - s.opts.target)).bind fun imo =>
    let feeWithoutDrain := max feeWithoutDrain s.opts.minAbsoluteFee
    let feeWithDrain := max feeWithDrain s.opts.minAbsoluteFee
    (b.unsigned 64 ((imo : Int) - feeWithoutDrain)).bind fun excess =>
    (selectedWaste b s).bind fun inputWaste =>
    (noDrainStrategies b s feeWithoutDrain excess weightWithoutDrain inputWaste).bind fun l1 =>
    (drainStrategies b s feeWithDrain imo weightWithDrain inputWaste).bind fun l2 =>
    if b = .debug ∧ l1 ++ l2 = [] then none
    else some (.ok { selected := s.selected, excess, strategies := l1 ++ l2 })

/-- coin_selector.rs:282-289: the loop of `select_until_finished` -/
def untilLoop (s : Selector) (r : Except SelErr Selection) :
    List Nat → Option (Except SelErr Selection × Selector)
  | [] => some (r, s)
  | i :: rest =>
    (s.select i).bind fun (_, s') =>
    (finish b s').bind fun r' =>
    match r' with
    | .ok x => some (.ok x, s')
    | .error e => untilLoop s' (.error e) rest

/-- coin_selector.rs:273-292 `select_until_finished` -/
def selectUntilFinished (s : Selector) : Option (Except SelErr Selection × Selector) :=
  (finish b s).bind fun r =>
  match r with
  | .ok x => some (.ok x, s)
  | .error e => untilLoop b s (.error e) s.unselectedIndexes

/-! ### Branch and bound -/

/-- bnb.rs:39-55 `new` (the fold adds absolute and effective values alternately; no panic depends on that order) -/
def bnbNew (selector : Selector) (pool : List (Nat × WV)) (best : Int) : Option (Bnb Int) :=
  (b.sumU 64 0 (pool.map (·.2.value))).bind fun remAbs =>
  (sumEff b selector.opts.targetFeerate 0 (pool.map (·.2))).map fun remEff =>
  { pool, poolPos := 0, best, selection := selector, remAbs, remEff }

/-- bnb.rs:71-90 `backtrack` -/
def backtrackFrom (x : Bnb Int) : Nat → Option (Bool × Bnb Int)
  | 0 => some (false, x)
  | pos + 1 =>
    match x.pool[pos]? with
    | none => none
    | some (index, c) =>
      if x.selection.isSelected index then
        some (true, { x with poolPos := pos, selection := (x.selection.deselect index).2 })
      else
        (b.unsigned 64 ((x.remAbs : Int) + c.value)).bind fun remAbs =>
        (eff b c x.selection.opts.targetFeerate).bind fun e =>
        (b.i64 (x.remEff + e)).bind fun remEff =>
        backtrackFrom { x with remAbs, remEff } pos

/-- bnb.rs:93-101 `forward` -/
def forward (x : Bnb Int) (skip : Bool) : Option (Bnb Int) :=
  match x.pool[x.poolPos]? with
  | none => none
  | some (index, c) =>
    (b.unsigned 64 ((x.remAbs : Int) - c.value)).bind fun remAbs =>
    (eff b c x.selection.opts.targetFeerate).bind fun e =>
    (b.i64 (x.remEff - e)).bind fun remEff =>
    let x' := { x with remAbs, remEff }
    if skip then some x' else (x'.selection.select index).map fun r => { x' with selection := r.2 }

/-- bnb.rs:148-160 and 163 -/
def move (x : Bnb Int) : Branch → Option (Bool × Bnb Int)
  | .continue => (forward b x false).map fun x' => (false, { x' with poolPos := x'.poolPos + 1 })
  | .skipInclusion => (forward b x true).map fun x' => (false, { x' with poolPos := x'.poolPos + 1 })
  | .skipBoth => (backtrackFrom b x x.poolPos).map fun r => (!r.1, { r.2 with poolPos := r.2.poolPos + 1 })

/-- bnb.rs:126-170 `next` -/
def next (strategy : Decide Int) (it : BnbIter Int) : Option (Option (Option Selector) × BnbIter Int) :=
  if it.done then some (none, it)
  else
    (strategy it.state).bind fun d =>
    let a := BnbIter.advertise it.state d.2
    if b = .debug ∧ (d.1.willContinue && !decide (a.1.poolPos < a.1.pool.length)) = true then none
    else
      (move b a.1 d.1).map fun r =>
        (if a.2.isSome || !r.1 then some a.2 else none, { state := r.2, done := r.1 })

/-- `iter.take(rounds)` collected -/
def take (strategy : Decide Int) : Nat → BnbIter Int → Option (List (Option Selector))
  | 0, _ => some []
  | n + 1, it =>
    (next b strategy it).bind fun r =>
    match r.1 with
    | none => some []
    | some x => (take strategy n r.2).map fun xs => x :: xs

/-- bnb.rs:265-278: the early bailout test -/
def bailout (x : Bnb Int) : Option Bool :=
  if 0 < x.poolPos ∧ x.selection.isEmpty = false then
    match x.pool[x.poolPos]?, x.pool[x.poolPos - 1]? with
    | some (_, c), some (prevIndex, pc) =>
      some (!x.selection.isSelected prevIndex && decide (c.value = pc.value) && decide (c.weight = pc.weight))
    | _, _ => none
  else some false

/-- the bounds the search works with: bnb.rs:232-236 -/
structure Bounds where
  targetAbs : Nat
  targetEff : Int
  upperAbs : Nat
  upperEff : Int

/-- bnb.rs:232-236 -/
def bounds (s : Selector) : Option Bounds :=
  (b.unsigned 64 ((s.opts.target : Int) + s.opts.minAbsoluteFee)).bind fun targetAbs =>
  (effectiveTarget b s).bind fun targetEff =>
  (b.unsigned 64 ((targetAbs : Int) + satU ⌊mulF s.opts.drainWeight s.opts.targetFeerate⌋)).bind fun upperAbs =>
  (b.i64 (targetEff + drainWaste s.opts)).map fun upperEff => ⟨targetAbs, targetEff, upperAbs, upperEff⟩

/-- bnb.rs:245 and 297: not enough is left to reach the targets; `||` evaluates the right operand if the left one fails -/
def tooLittle (t : Bounds) (abs remAbs : Nat) (e remEff : Int) : Option Bool :=
  (b.unsigned 64 ((abs : Int) + remAbs)).bind fun x =>
  if x < t.targetAbs then some true else (b.i64 (e + remEff)).map fun y => decide (y < t.targetEff)

/-- bnb.rs:238-282: the strategy closure -/
def strategy (o : Opt) (t : Bounds) : Decide Int := fun x =>
  (selectedAbs b x.selection).bind fun abs =>
  (selectedEff b x.selection).bind fun e =>
  (tooLittle b t abs x.remAbs e x.remEff).bind fun little =>
  if little then some (.skipBoth, none)
  else if t.upperAbs < abs ∧ t.upperEff < e then some (.skipBoth, none)
  else
    (selectedWaste b x.selection).bind fun waste =>
    if o.longTerm < o.targetFeerate ∧ x.best < waste then some (.skipBoth, none)
    else if t.targetAbs ≤ abs ∧ t.targetEff ≤ e then
      (currentExcess b x.selection).bind fun ex =>
      (b.i64 (waste + ex)).map fun score => (.skipBoth, some score)
    else
      (bailout x).map fun skip => if skip then (.skipInclusion, none) else (.continue, none)

/-- bnb.rs:216-221: the candidates with a positive effective value -/
def useful (rate : ℚ) : List (Nat × WV) → Option (List (Nat × WV))
  | [] => some []
  | x :: l => (eff b x.2 rate).bind fun e => (useful rate l).map fun r => if 0 < e then x :: r else r

/-- bnb.rs:206-314 `coin_select_bnb` with `BnbLimit::Rounds(rounds)`.  `sort` is what `sort_unstable_by` does (its comparisons
recompute effective values, which have just been computed without overflow for the same candidates). -/
def coinSelectBnb (sort : List (Nat × WV) → List (Nat × WV)) (rounds : Nat) (s : Selector) : Option (Option Selector) :=
  (useful b s.opts.targetFeerate s.unselected).bind fun pool0 =>
  let pool := sort pool0
  (bounds b s).bind fun t =>
  (selectedAbs b s).bind fun abs =>
  (selectedEff b s).bind fun e =>
  (bnbNew b s pool (2 ^ 63 - 1)).bind fun x =>
  (tooLittle b t abs x.remAbs e x.remEff).bind fun little =>
  if little then some none
  else (take b (strategy b s.opts t) rounds { state := x, done := false }).map lastSome

end Verif.CoinSelect.Machine
