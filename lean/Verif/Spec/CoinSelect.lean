import Verif.Model.Bnb
import Verif.Spec.Float32

/-!
# Specification of coin selection, independent of the selector's own helpers

A *selection* is a set `X` of indexes into the list `cs` of candidates.
-/

namespace Verif.CoinSelect.Spec

/-- total value of the selected coins -/
def value (cs : List WV) (X : Finset Nat) : Nat := ∑ i ∈ X, (cs.getD i default).value

/-- how many bytes Bitcoin's encoding of a counter takes -/
def counterLen (n : Nat) : Nat :=
  if n < 253 then 1 else if n < 2 ^ 16 then 3 else if n < 2 ^ 32 then 5 else 9

/-- weight of the transaction without a change output: the template, the inputs, the segwit marker and flag if some
input needs them, and the extra bytes (4 weight units each) of the input counter beyond the first one -/
def weight (o : Opt) (cs : List WV) (X : Finset Nat) : Nat :=
  o.baseWeight + ∑ i ∈ X, (cs.getD i default).weight
    + (if ∃ i ∈ X, (cs.getD i default).isSegwit = true then 2 else 0)
    + 4 * (counterLen (∑ i ∈ X, (cs.getD i default).inputCount) - 1)

/-- the product of a weight and a rate as IEEE 754 single precision has it: the weight is rounded to an `f32`, then the product is
(`f32` is the rounding IEEE 754 prescribes: `C66_rounding`; how far this is from the exact product: `C66_fee_exact_range`,
`C66_fee_relative`) -/
def product (w : Nat) (rate : ℚ) : ℚ := f32 (f32 w * rate)

/-- the fee due for the weight `w` at `rate`: their product, rounded up to whole satoshis (never negative) -/
def minFee (w : Nat) (rate : ℚ) : Nat := ⌈product w rate⌉₊

/-- what the inputs must be worth: recipients plus the fee due at the target rate and the absolute minimum fee;
with no recipients there must be a change output, so its fee and least value instead -/
def required (o : Opt) (cs : List WV) (X : Finset Nat) : Nat :=
  let base := max (o.targetValue.getD 0 + minFee (weight o cs X) o.targetFeerate)
    (o.targetValue.getD 0 + o.minAbsoluteFee)
  match o.targetValue with
  | some _ => base
  | none => max base (minFee (weight o cs X + o.drainWeight) o.targetFeerate + o.minDrainValue)

/-- how much is missing for one constraint -/
def missing (o : Opt) (cs : List WV) (X : Finset Nat) : Constraint → Nat
  | .targetValue => o.targetValue.getD 0 - value cs X
  | .targetFee => o.targetValue.getD 0 + minFee (weight o cs X) o.targetFeerate - value cs X
  | .minAbsoluteFee => o.targetValue.getD 0 + o.minAbsoluteFee - value cs X
  | .minDrainValue =>
    match o.targetValue with
    | some _ => 0
    | none => minFee (weight o cs X + o.drainWeight) o.targetFeerate + o.minDrainValue - value cs X

/-- the fee of a transaction with a change output -/
def drainFee (o : Opt) (cs : List WV) (X : Finset Nat) : Nat :=
  max (minFee (weight o cs X + o.drainWeight) o.targetFeerate) o.minAbsoluteFee

/-- the rate at which coins are expected to be spent later: the target rate if none is given -/
def laterRate (o : Opt) : ℚ :=
  match o.longTermFeerate with
  | some r => r
  | none => o.targetFeerate

/-- whole satoshis, rounded towards zero -/
def wholeSats (c : ℚ) : Int := if 0 ≤ c then ⌊c⌋ else ⌈c⌉

/-- what the inputs cost now over what they would cost later -/
def inputWaste (o : Opt) (cs : List WV) (X : Finset Nat) : Int :=
  wholeSats (product (∑ i ∈ X, (cs.getD i default).weight) (f32 (o.targetFeerate - laterRate o)))

/-- what a change output costs: creating it now and spending it later -/
def changeCost (o : Opt) : Int :=
  wholeSats (f32 (product o.drainWeight o.targetFeerate + product o.spendDrainWeight (laterRate o)))

/-- the waste of a way of turning the coins into a transaction: that of the inputs, plus the cost of the change output or
what is paid beyond the fee that is due -/
def stratWaste (o : Opt) (cs : List WV) (X : Finset Nat) (st : Strat) : Int :=
  inputWaste o cs X + if st.drainValue.isSome then changeCost o
    else (st.fee : Int) - max (minFee (weight o cs X) o.targetFeerate) o.minAbsoluteFee

/-- A sound way of turning the selected coins into a transaction. -/
structure Sound (o : Opt) (cs : List WV) (X : Finset Nat) (st : Strat) : Prop where
  /-- no satoshi is created or lost -/
  balance : value cs X = st.recipientValue.getD 0 + st.drainValue.getD 0 + st.fee
  /-- the reported weight is the weight of that transaction -/
  weight_eq : st.weight = weight o cs X + (if st.drainValue.isSome then o.drainWeight else 0)
  /-- the fee due at the target rate is paid -/
  due : minFee st.weight o.targetFeerate ≤ st.fee
  /-- for everyday sizes (weights and fees up to 2^24) that is the target rate to within less than one satoshi -/
  rate : st.weight ≤ 2 ^ 24 → (st.weight : ℚ) * o.targetFeerate ≤ 2 ^ 24 → (st.weight : ℚ) * o.targetFeerate < st.fee + 1
  /-- for all sizes it is the target rate to within one part in 2^23 -/
  rateAll : IsF32 o.targetFeerate → (st.weight : ℚ) * o.targetFeerate * (1 - 1 / 2 ^ 23) ≤ st.fee
  absolute : o.minAbsoluteFee ≤ st.fee
  /-- the change is not below the least value -/
  drain : ∀ d, st.drainValue = some d → o.minDrainValue ≤ d
  /-- recipients get the target and at most the leeway on top; without recipients none is invented -/
  recipient : match o.targetValue with
    | some v => ∃ r, st.recipientValue = some r ∧ v ≤ r ∧ r ≤ v + o.maxExtraTarget
    | none => st.recipientValue = none ∧ st.drainValue.isSome

end Verif.CoinSelect.Spec

/-! ## Branch and bound -/

namespace Verif.CoinSelect.Spec

/-- value of one coin after paying for its own weight at the target rate -/
def effCoin (o : Opt) (c : WV) : Int := c.value - ⌈product c.weight o.targetFeerate⌉

/-- effective value of a selection -/
def effValue (o : Opt) (cs : List WV) (X : Finset Nat) : Int := ∑ i ∈ X, effCoin o (cs.getD i default)

/-- the effective value that pays the recipients and the template transaction at the target rate (with headers for as
many inputs as there are candidates) -/
def effTarget (o : Opt) (cs : List WV) : Int :=
  (o.targetValue.getD 0 : Int) +
    ⌈product (o.baseWeight + (if cs.any (·.isSegwit) then 2 else 0)
      + (counterLen (cs.map (·.inputCount)).sum - 1) * 4) o.targetFeerate⌉

/-- both targets are met: recipients plus the absolute minimum fee, and the effective target -/
def Meets (o : Opt) (cs : List WV) (X : Finset Nat) : Prop :=
  o.targetValue.getD 0 + o.minAbsoluteFee ≤ value cs X ∧ effTarget o cs ≤ effValue o cs X

/-- not both bounds are exceeded: beyond them a change output would cost less than the excess -/
def InWindow (o : Opt) (cs : List WV) (X : Finset Nat) : Prop :=
  ¬ (o.targetValue.getD 0 + o.minAbsoluteFee + ⌊product o.drainWeight o.targetFeerate⌋.toNat < value cs X ∧
     effTarget o cs + changeCost o < effValue o cs X)

/-- the waste of a selection that spends its excess: what the inputs cost now over what they would cost at the long
term rate, plus the excess -/
def score (o : Opt) (cs : List WV) (X : Finset Nat) : Int :=
  inputWaste o cs X
    + (effValue o cs X - effTarget o cs)

/-- A changeless solution for the selector `s`: the coins already selected and some further coins of positive effective
value, meeting both targets within the bounds. -/
structure IsSolution (s : Selector) (X : Finset Nat) : Prop where
  keeps : s.selected ⊆ X
  adds : ∀ i ∈ X, i ∉ s.selected → i < s.candidates.length ∧ 0 < effCoin s.opts (s.candidates.getD i default)
  meets : Meets s.opts s.candidates X
  window : InWindow s.opts s.candidates X

end Verif.CoinSelect.Spec
