import Verif.Model.Ieee

/-!
# The coin selector on machine integers and all `f32` rates (bdk_coin_select)

The functions of Model/MachineSelect once more, for rates that may be any `f32`, infinite and NaN included.  `Rates` has the
expressions of the code in which a rate occurs.
-/

namespace Verif.CoinSelect.Ieee
open Verif Verif.CoinSelect.Machine

/-- coin_selector.rs:44-69 `CoinSelectorOpt`, the rates as `f32` -/
structure Opt where
  targetValue : Option Nat
  maxExtraTarget : Nat
  targetFeerate : F32
  longTermFeerate : Option F32
  minAbsoluteFee : Nat
  baseWeight : Nat
  drainWeight : Nat
  spendDrainWeight : Nat
  minDrainValue : Nat

/-- coin_selector.rs:121-123 `long_term_feerate` -/
def Opt.longTerm (o : Opt) : F32 := o.longTermFeerate.getD o.targetFeerate

/-- the options as those of Model/CoinSelect.  (No function below looks at the two rates in it, they take a `Rates`; they are
kept, if both are finite, for the comparison with Model/MachineSelect.) -/
def Opt.plain (o : Opt) : CoinSelect.Opt :=
  { targetValue := o.targetValue, maxExtraTarget := o.maxExtraTarget,
    targetFeerate := match o.targetFeerate, o.longTermFeerate with
      | .fin t, none => t
      | .fin t, some (.fin _) => t
      | _, _ => 0,
    longTermFeerate := match o.targetFeerate, o.longTermFeerate with
      | .fin _, some (.fin l) => some l
      | _, _ => none,
    minAbsoluteFee := o.minAbsoluteFee, baseWeight := o.baseWeight, drainWeight := o.drainWeight,
    spendDrainWeight := o.spendDrainWeight, minDrainValue := o.minDrainValue }

/-- coin_selector.rs:133-138 `CoinSelector` -/
structure Sel where
  opts : Opt
  candidates : List WV
  selected : Finset Nat

/-- the selector as that of Model/CoinSelect -/
def Sel.plain (s : Sel) : Selector := { opts := s.opts.plain, candidates := s.candidates, selected := s.selected }

/-- what the code computes from the rates -/
structure Rates where
  /-- coin_selector.rs:298-300 `(weight as f32 * target_feerate).ceil() as u64` -/
  feeU : Nat → Nat
  /-- coin_selector.rs:39, :237 `(weight as f32 * target_feerate).ceil() as i64` -/
  feeI : Nat → Int
  /-- bnb.rs:233 `(drain_weight as f32 * target_feerate) as u64` -/
  drainFee : Nat
  /-- coin_selector.rs:127-130 `drain_waste` -/
  drainWaste : Int
  /-- coin_selector.rs:196-198 `(weight as f32 * (target_feerate - long_term_feerate)) as i64` -/
  waste : Nat → Int
  /-- bnb.rs:228 `target_feerate > long_term_feerate` -/
  decreasing : Bool

/-- the rates of the options -/
def Opt.rates (o : Opt) : Rates where
  feeU w := (F32.ceil (F32.mul (F32.ofNat w) o.targetFeerate)).toU64
  feeI w := (F32.ceil (F32.mul (F32.ofNat w) o.targetFeerate)).toI64
  drainFee := (F32.mul (F32.ofNat o.drainWeight) o.targetFeerate).toU64
  drainWaste := (F32.add (F32.mul (F32.ofNat o.drainWeight) o.targetFeerate)
    (F32.mul (F32.ofNat o.spendDrainWeight) o.longTerm)).toI64
  waste w := (F32.mul (F32.ofNat w) (F32.sub o.targetFeerate o.longTerm)).toI64
  decreasing := F32.gt o.targetFeerate o.longTerm

variable (b : Build) (r : Rates)

/-- coin_selector.rs:36-41 `effective_value` -/
def eff (c : WV) : Option Int := b.i64 (SpkIndex.asI64 c.value - r.feeI c.weight)

/-- a sum of effective values, each computed when it is added -/
def sumEff : Int → List WV → Option Int
  | acc, [] => some acc
  | acc, c :: l => (eff b r c).bind fun e => (b.i64 (acc + e)).bind fun a => sumEff a l

/-- coin_selector.rs:179-184 `selected_effective_value` -/
def selectedEff (s : Selector) : Option Int := sumEff b r 0 ((indexes s).map s.candidate)

/-- coin_selector.rs:195-198 `selected_waste` -/
def selectedWaste (s : Selector) : Option Int := (selectedWeight b s).map fun w => r.waste w

/-- coin_selector.rs:224-239 `effective_target` -/
def effectiveTarget (s : Selector) : Option Int :=
  (b.sumU 64 0 (s.candidates.map (·.inputCount))).bind fun count =>
  (b.sumU 32 s.opts.baseWeight [if s.candidates.any (·.isSegwit) then 2 else 0, (varintSize count - 1) * 4]).bind fun w =>
  b.i64 (SpkIndex.asI64 s.opts.target + r.feeI w)

/-- coin_selector.rs:219-221 `current_excess` -/
def currentExcess (s : Selector) : Option Int :=
  (selectedEff b r s).bind fun e => (effectiveTarget b r s).bind fun t => b.i64 (e - t)

/-- coin_selector.rs:393-406: the strategy with a drain output -/
def drainStrategies (s : Selector) (fee imo weight : Nat) (inputWaste : Int) : Option (List (Kind × Strat)) :=
  if s.opts.minAbsoluteFee ≤ fee then
    (b.unsigned 64 ((fee : Int) + s.opts.minDrainValue)).bind fun x =>
    if x ≤ imo then
      (b.i64 (inputWaste + r.drainWaste)).map fun waste =>
      [(Kind.toDrain, { recipientValue := s.opts.targetValue, drainValue := some (imo - fee), fee, weight, waste })]
    else some []
  else some []

/-- coin_selector.rs:294-417 `finish` -/
def finishR (s : Selector) : Option (Except SelErr Selection) :=
  (currentWeight b s).bind fun weightWithoutDrain =>
  (b.unsigned 32 ((weightWithoutDrain : Int) + s.opts.drainWeight)).bind fun weightWithDrain =>
  let feeWithoutDrain := r.feeU weightWithoutDrain
  let feeWithDrain := r.feeU weightWithDrain
  (selectedAbs b s).bind fun selected =>
  (shortfalls b s selected feeWithoutDrain feeWithDrain).bind fun constraints =>
  match maxByKey (·.2) (constraints.filter fun x => decide (0 < x.2)) with
  | some (c, missing) => some (.error { selected, missing, constraint := c })
  | none =>
    (b.unsigned 64 ((selected : Int) - s.opts.target)).bind fun imo =>
    let feeWithoutDrain := max feeWithoutDrain s.opts.minAbsoluteFee
    let feeWithDrain := max feeWithDrain s.opts.minAbsoluteFee
    (b.unsigned 64 ((imo : Int) - feeWithoutDrain)).bind fun excess =>
    (selectedWaste b r s).bind fun inputWaste =>
    (noDrainStrategies b s feeWithoutDrain excess weightWithoutDrain inputWaste).bind fun l1 =>
    (drainStrategies b r s feeWithDrain imo weightWithDrain inputWaste).bind fun l2 =>
    if b = .debug ∧ l1 ++ l2 = [] then none
    else some (.ok { selected := s.selected, excess, strategies := l1 ++ l2 })

/-- coin_selector.rs:282-289: the loop of `select_until_finished` -/
def untilLoop (s : Selector) (res : Except SelErr Selection) :
    List Nat → Option (Except SelErr Selection × Selector)
  | [] => some (res, s)
  | i :: rest =>
    (s.select i).bind fun (_, s') =>
    (finishR b r s').bind fun r' =>
    match r' with
    | .ok x => some (.ok x, s')
    | .error e => untilLoop s' (.error e) rest

/-- coin_selector.rs:273-292 `select_until_finished` -/
def untilR (s : Selector) : Option (Except SelErr Selection × Selector) :=
  (finishR b r s).bind fun res =>
  match res with
  | .ok x => some (.ok x, s)
  | .error e => untilLoop b r s (.error e) s.unselectedIndexes

/-! ### Branch and bound -/

/-- bnb.rs:39-55 `new` -/
def bnbNew (selector : Selector) (pool : List (Nat × WV)) (best : Int) : Option (Bnb Int) :=
  (b.sumU 64 0 (pool.map (·.2.value))).bind fun remAbs =>
  (sumEff b r 0 (pool.map (·.2))).map fun remEff =>
  { pool, poolPos := 0, best, selection := selector, remAbs, remEff }

/-- bnb.rs:71-90 `backtrack` -/
def backtrackFrom (x : Bnb Int) : Nat → Option (Bool × Bnb Int)
  | 0 => some (false, x)
  | pos + 1 =>
    match x.pool[pos]? with
    | none => none
    | some (index, c) =>
      if x.selection.isSelected index then
        some (true, { x with poolPos := pos, selection := (x.selection.deselect index).2 })
      else
        (b.unsigned 64 ((x.remAbs : Int) + c.value)).bind fun remAbs =>
        (eff b r c).bind fun e =>
        (b.i64 (x.remEff + e)).bind fun remEff =>
        backtrackFrom { x with remAbs, remEff } pos

/-- bnb.rs:93-101 `forward` -/
def forward (x : Bnb Int) (skip : Bool) : Option (Bnb Int) :=
  match x.pool[x.poolPos]? with
  | none => none
  | some (index, c) =>
    (b.unsigned 64 ((x.remAbs : Int) - c.value)).bind fun remAbs =>
    (eff b r c).bind fun e =>
    (b.i64 (x.remEff - e)).bind fun remEff =>
    let x' := { x with remAbs, remEff }
    if skip then some x' else (x'.selection.select index).map fun res => { x' with selection := res.2 }

/-- bnb.rs:148-160 and 163 -/
def move (x : Bnb Int) : Branch → Option (Bool × Bnb Int)
  | .continue => (forward b r x false).map fun x' => (false, { x' with poolPos := x'.poolPos + 1 })
  | .skipInclusion => (forward b r x true).map fun x' => (false, { x' with poolPos := x'.poolPos + 1 })
  | .skipBoth => (backtrackFrom b r x x.poolPos).map fun res => (!res.1, { res.2 with poolPos := res.2.poolPos + 1 })

/-- bnb.rs:126-170 `next` -/
def next (strategy : Decide Int) (it : BnbIter Int) : Option (Option (Option Selector) × BnbIter Int) :=
  if it.done then some (none, it)
  else
    (strategy it.state).bind fun d =>
    let a := BnbIter.advertise it.state d.2
    if b = .debug ∧ (d.1.willContinue && !decide (a.1.poolPos < a.1.pool.length)) = true then none
    else
      (move b r a.1 d.1).map fun res =>
        (if a.2.isSome || !res.1 then some a.2 else none, { state := res.2, done := res.1 })

/-- `iter.take(rounds)` collected -/
def take (strategy : Decide Int) : Nat → BnbIter Int → Option (List (Option Selector))
  | 0, _ => some []
  | n + 1, it =>
    (next b r strategy it).bind fun res =>
    match res.1 with
    | none => some []
    | some x => (take strategy n res.2).map fun xs => x :: xs

/-- bnb.rs:232-236 -/
def bounds (s : Selector) : Option Bounds :=
  (b.unsigned 64 ((s.opts.target : Int) + s.opts.minAbsoluteFee)).bind fun targetAbs =>
  (effectiveTarget b r s).bind fun targetEff =>
  (b.unsigned 64 ((targetAbs : Int) + r.drainFee)).bind fun upperAbs =>
  (b.i64 (targetEff + r.drainWaste)).map fun upperEff => ⟨targetAbs, targetEff, upperAbs, upperEff⟩

/-- bnb.rs:238-282: the strategy closure -/
def strategy (t : Bounds) : Decide Int := fun x =>
  (selectedAbs b x.selection).bind fun abs =>
  (selectedEff b r x.selection).bind fun e =>
  (tooLittle b t abs x.remAbs e x.remEff).bind fun little =>
  if little then some (.skipBoth, none)
  else if t.upperAbs < abs ∧ t.upperEff < e then some (.skipBoth, none)
  else
    (selectedWaste b r x.selection).bind fun waste =>
    if r.decreasing = true ∧ x.best < waste then some (.skipBoth, none)
    else if t.targetAbs ≤ abs ∧ t.targetEff ≤ e then
      (currentExcess b r x.selection).bind fun ex =>
      (b.i64 (waste + ex)).map fun score => (.skipBoth, some score)
    else
      (Machine.bailout x).map fun skip => if skip then (.skipInclusion, none) else (.continue, none)

/-- bnb.rs:216-221: the candidates with a positive effective value -/
def useful : List (Nat × WV) → Option (List (Nat × WV))
  | [] => some []
  | x :: l => (eff b r x.2).bind fun e => (useful l).map fun res => if 0 < e then x :: res else res

/-- bnb.rs:206-314 `coin_select_bnb` with `BnbLimit::Rounds(rounds)` -/
def bnbR (sort : List (Nat × WV) → List (Nat × WV)) (rounds : Nat) (s : Selector) : Option (Option Selector) :=
  (useful b r s.unselected).bind fun pool0 =>
  let pool := sort pool0
  (bounds b r s).bind fun t =>
  (selectedAbs b s).bind fun abs =>
  (selectedEff b r s).bind fun e =>
  (bnbNew b r s pool (2 ^ 63 - 1)).bind fun x =>
  (tooLittle b t abs x.remAbs e x.remEff).bind fun little =>
  if little then some none
  else (take b r (strategy b r t) rounds { state := x, done := false }).map lastSome

/-! ### the calls -/

/-- `finish()` -/
def finish (s : Sel) : Option (Except SelErr Selection) := finishR b s.opts.rates s.plain

/-- `select_until_finished()`: the result and the indexes selected then -/
def selectUntilFinished (s : Sel) : Option (Except SelErr Selection × Finset Nat) :=
  (untilR b s.opts.rates s.plain).map fun x => (x.1, x.2.selected)

/-- `coin_select_bnb(BnbLimit::Rounds(rounds), selector)`: the indexes it selects -/
def coinSelectBnb (sort : List (Nat × WV) → List (Nat × WV)) (rounds : Nat) (s : Sel) : Option (Option (Finset Nat)) :=
  (bnbR b s.opts.rates sort rounds s.plain).map fun x => x.map fun x => x.selected

/-- `selected_waste()` -/
def waste (s : Sel) : Option Int := selectedWaste b s.opts.rates s.plain

/-- `effective_value(rate)` of a candidate -/
def effectiveValue (c : WV) (rate : F32) : Option Int :=
  b.i64 (SpkIndex.asI64 c.value - (F32.ceil (F32.mul (F32.ofNat c.weight) rate)).toI64)

end Verif.CoinSelect.Ieee
