import Verif.Model.IeeeSelect

/-!
# Specification vocabulary: fees at any `f32` rate
-/

namespace Verif.CoinSelect.Spec
open Verif

/-- what a transaction of weight `w` has to pay at a rate, in a `u64`: the rounded product, rounded up; nothing at a rate that is
not a number or below 0; all a `u64` holds at an infinite rate, except for a weight of 0 -/
def charge : F32 → Nat → Nat
  | .fin q, w => min ⌈f32 (f32 w * q)⌉.toNat (2 ^ 64 - 1)
  | .inf false, w => if w = 0 then 0 else 2 ^ 64 - 1
  | .inf true, _ => 0
  | .nan, _ => 0

/-- what the coins at the selected indexes are worth -/
def coinsValue (s : Ieee.Sel) : Nat := ∑ i ∈ s.selected, (s.candidates.getD i default).value

/-- the weight of the transaction without a change output: the base, the inputs, two units for the witness marker if an input is
segwit, and four units for each byte by which the number of inputs is longer than one byte -/
def txWeight (s : Ieee.Sel) : Nat :=
  s.opts.baseWeight + (∑ i ∈ s.selected, (s.candidates.getD i default).weight) +
    (if ∃ i ∈ s.selected, (s.candidates.getD i default).isSegwit = true then 2 else 0) +
    (varintSize (∑ i ∈ s.selected, (s.candidates.getD i default).inputCount) - 1) * 4

/-- a way to use the excess that is right for the options: it balances, pays at least the least fee and what the rate asks for its
weight, gives the recipient no less than wanted and the change output no less than its least value -/
structure Right (s : Ieee.Sel) (x : Strat) : Prop where
  balance : coinsValue s = x.recipientValue.getD 0 + x.drainValue.getD 0 + x.fee
  leastFee : s.opts.minAbsoluteFee ≤ x.fee
  rate : charge s.opts.targetFeerate x.weight ≤ x.fee
  weight : x.weight = txWeight s + if x.drainValue.isSome then s.opts.drainWeight else 0
  recipient : ∀ v, s.opts.targetValue = some v → ∃ v', x.recipientValue = some v' ∧ v ≤ v'
  noRecipient : s.opts.targetValue = none → x.recipientValue = none
  change : ∀ d, x.drainValue = some d → s.opts.minDrainValue ≤ d

/-- a selector with rational rates, its rates as `f32` -/
def withF32 (s : Selector) : Ieee.Sel where
  opts := {
    targetValue := s.opts.targetValue, maxExtraTarget := s.opts.maxExtraTarget,
    targetFeerate := .fin s.opts.targetFeerate, longTermFeerate := s.opts.longTermFeerate.map F32.fin,
    minAbsoluteFee := s.opts.minAbsoluteFee, baseWeight := s.opts.baseWeight, drainWeight := s.opts.drainWeight,
    spendDrainWeight := s.opts.spendDrainWeight, minDrainValue := s.opts.minDrainValue }
  candidates := s.candidates
  selected := s.selected

/-- the same selector with another rate and no long-term rate -/
def _root_.Verif.CoinSelect.Ieee.Sel.atRate (s : Ieee.Sel) (rate : F32) : Ieee.Sel :=
  { s with opts := { s.opts with targetFeerate := rate, longTermFeerate := none } }

end Verif.CoinSelect.Spec
