import Verif.Props.Bnb

/-!
# The unit tests of the repository, run on the model: the tests inside bdk_coin_select/src

These are not proofs of properties, but a check that the model behaves as the authors of the code say that the code does: each
example is one of their tests, transcribed, with fewer coins where the test has hundreds.  (Their tests of `coin_select_bnb` are
not compiled at this commit: they need a feature and modules that the crate does not have.  Their weights come from a module
that is not in the repository, so that only the tests at a feerate of 0, where the weights do not matter, can be transcribed.)
-/

namespace Verif.Tests.CoinSelect
open Verif Verif.CoinSelect

deriving instance DecidableEq for Except

def respOpt : Opt :=
  { targetValue := some 1000, maxExtraTarget := 0, targetFeerate := 0, longTermFeerate := none, minAbsoluteFee := 0,
    baseWeight := 10, drainWeight := 10, spendDrainWeight := 10, minDrainValue := 10 }

/-- what `finish` says after selecting the coin at index `i` alone -/
def finishOne (values : List Nat) (i : Nat) : Option (Except SelErr Nat) := do
  let r ← (Selector.new (values.map fun v => ⟨v, 100, 1, false⟩) respOpt).select i
  guard r.1
  match ← r.2.finish with
  | .error e => return .error e
  | .ok s => return .ok s.excess

/-- `target_value_respected` (for 6 of the 1000 values) -/
example : (List.range 6).map (finishOne [500, 501, 999, 1000, 1001, 1499]) =
    [some (.error ⟨500, 500, .minAbsoluteFee⟩), some (.error ⟨501, 499, .minAbsoluteFee⟩), some (.error ⟨999, 1, .minAbsoluteFee⟩),
     some (.ok 0), some (.ok 1), some (.ok 499)] := by decide +kernel

/-- `drain_all` (with 8 of the 100 coins): how many coins are selected, the strategies there are, and the best one -/
example : (do
    let r ← (Selector.new (List.replicate 8 ⟨666, 166, 1, false⟩)
      { targetValue := none, maxExtraTarget := 0, targetFeerate := 1 / 4, longTermFeerate := none, minAbsoluteFee := 0,
        baseWeight := 10, drainWeight := 100, spendDrainWeight := 66, minDrainValue := 1000 }).selectUntilFinished
    match r.1 with
    | .error _ => none
    | .ok s => do
      guard (1 < s.selected.card)
      guard (s.strategies.length = 1)
      let b ← Selection.bestStrategy s.strategies
      guard (b.1 = .toDrain ∧ b.2.recipientValue = none ∧ b.2.drainValue.isSome)) = some () := by decide +kernel

def opts0 (target : Nat) : Opt :=
  { targetValue := some target, maxExtraTarget := 0, targetFeerate := 0, longTermFeerate := none, minAbsoluteFee := 0,
    baseWeight := 164, drainWeight := 172, spendDrainWeight := 230, minDrainValue := 330 }

def coins (l : List Nat) : List WV := l.map fun v => ⟨v, 230, 1, true⟩

/-- `coin_select_bnb`, then the number of selected coins and the excess of the `ToFee` strategy -/
def run (s : Selector) (rounds : Nat) : Option (Option (Finset Nat × Nat)) := do
  match ← coinSelectBnb (exSort 0) rounds s with
  | none => return none
  | some s' => match ← s'.finish with
    | .error _ => none
    | .ok x => return some (x.selected, x.excess)

/-- `not_enough_coins` (there at a positive feerate; here one coin is too small) -/
example : run (Selector.new (coins [100000, 99999]) (opts0 200000)) 10000 = some none := by decide +kernel

/-- `exactly_enough_coins_preselected` -/
example : (do
    let r0 ← (Selector.new (coins [100000, 100000, 100000]) (opts0 200000)).select 0
    let r1 ← r0.2.select 1
    run r1.2 10000) = some (some ({0, 1}, 0)) := by decide +kernel

def tryCoins : List WV := coins [300000, 300000, 300000, 200000, 200000]

/-- `try_select` -/
example : ([100000, 200000, 300000, 500000].map fun v => (run (Selector.new tryCoins (opts0 v)) 10000).map (·.map fun r => (r.1.card, r.2))) =
    [some none, some (some (1, 0)), some (some (1, 0)), some (some (2, 0))] := by decide +kernel
example : ([1000000, 1200000, 1300000, 1400000].map fun v => (run (Selector.new tryCoins (opts0 v)) 10000).map (·.map fun r => (r.1.card, r.2))) =
    [some (some (4, 0)), some none, some (some (5, 0)), some none] := by decide +kernel

/-- `early_bailout_optimization` (with 6 coins of 100 000 instead of 1000, and 20 rounds instead of 1100) -/
example : run (Selector.new (coins ([125000, 125000, 50000] ++ List.replicate 6 100000)) (opts0 300000)) 20 = some (some ({0, 1, 2}, 0)) := by
  decide +kernel

end Verif.Tests.CoinSelect
