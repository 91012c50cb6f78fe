import Verif.Spec.CoinSelect

/-!
# Specification: amounts and weights for which the coin selector cannot overflow

The bounds are far beyond anything Bitcoin has: the rate is below 4 million satoshis per virtual byte, all candidates together weigh
less than a thousand full blocks, and the amounts add up to less than 2^60 satoshis (all bitcoins are less than 2^51).
-/

namespace Verif.CoinSelect.Spec

structure Fits (o : Opt) (cs : List WV) : Prop where
  rate : 0 ≤ o.targetFeerate ∧ o.targetFeerate ≤ 2 ^ 20
  later : 0 ≤ laterRate o ∧ laterRate o ≤ 2 ^ 20
  weights : o.baseWeight + o.drainWeight + o.spendDrainWeight + (cs.map (·.weight)).sum + 64 ≤ 2 ^ 32
  amounts : (cs.map (·.value)).sum + o.targetValue.getD 0 + o.minAbsoluteFee + o.minDrainValue + o.maxExtraTarget ≤ 2 ^ 60
  counts : (cs.map (·.inputCount)).sum < 2 ^ 64

end Verif.CoinSelect.Spec
