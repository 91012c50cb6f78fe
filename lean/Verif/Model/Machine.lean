import Verif.Model.Tracker
import Mathlib.Data.Int.ModEq

/-!
# Machine integers: amounts as the compiled code computes them

Model/TxGraph, Model/SpkIndex and Model/CoinSelect compute with unbounded integers.  Here are the same functions on `u64` and
`i64`, for both build profiles: an arithmetic overflow panics in a debug build and wraps around in a release build
(`-C overflow-checks`, and with it `debug_assert!`).  `none` is a panic.
-/

namespace Verif

/-- the two build profiles of cargo -/
inductive Build where
  | debug | release
deriving DecidableEq, Repr

namespace Build

/-- the result of an operation on unsigned integers of `bits` bits whose exact result is `z` -/
def unsigned (b : Build) (bits : Nat) (z : Int) : Option Nat :=
  if 0 ≤ z ∧ z < 2 ^ bits then some z.toNat
  else match b with
    | .debug => none
    | .release => some (z % 2 ^ bits).toNat

/-- the result of an operation on `i64` whose exact result is `z`: wrapping around is reduction into `-2^63 .. 2^63` -/
def i64 (b : Build) (z : Int) : Option Int :=
  if -2 ^ 63 ≤ z ∧ z < 2 ^ 63 then some z
  else match b with
    | .debug => none
    | .release => some (z.bmod (2 ^ 64))

/-- `iter.sum::<uN>()` -/
def sumU (b : Build) (bits : Nat) : Nat → List Nat → Option Nat
  | acc, [] => some acc
  | acc, x :: l => (b.unsigned bits ((acc : Int) + x)).bind fun a => sumU b bits a l

/-- `iter.sum::<i64>()` -/
def sumI (b : Build) : Int → List Int → Option Int
  | acc, [] => some acc
  | acc, x :: l => (b.i64 (acc + x)).bind fun a => sumI b a l

/-- `iter.sum::<Option<i64>>()`: stops at the first `None` -/
def sumOptI (b : Build) : Int → List (Option Int) → Option (Option Int)
  | acc, [] => some (some acc)
  | _, none :: _ => some none
  | acc, some x :: l => (b.i64 (acc + x)).bind fun a => sumOptI b a l

end Build

namespace TxGraph
variable {T : Type} [AsTransaction T]

/-- tx_graph.rs:171-191 `calculate_fee` on machine integers: every value is cast with `as i64` -/
def calculateFeeM (b : Build) (g : TxGraph T) (tx : Tx) : Option (Option Int) :=
  if tx.isCoinBase then some (some 0)
  else
    (b.sumOptI 0 (tx.input.map fun i => (g.getTxout i).map fun o => SpkIndex.asI64 o.value)).bind fun r =>
    match r with
    | none => some none
    | some inputsSum =>
      (b.sumI 0 (tx.output.map fun o => SpkIndex.asI64 o.value)).bind fun outputsSum =>
      (b.i64 (inputsSum - outputsSum)).map some

end TxGraph

namespace SpkIndex
variable {I : Type} [LinearOrder I]

/-- spk_txout_index.rs:264-280 `sent_and_received` on machine integers -/
def sentAndReceivedM (b : Build) (x : SpkIndex I) (tx : Tx) : Option (Nat × Nat) :=
  (b.sumU 64 0 (tx.input.filterMap fun o => (x.txout o).map fun e => e.2.value)).bind fun sent =>
  (b.sumU 64 0 ((tx.output.filter fun o => (x.indexOfSpk o.spk).isSome).map fun o => o.value)).map fun received =>
  (sent, received)

/-- spk_txout_index.rs:287-290 `net_value` on machine integers -/
def netValueM (b : Build) (x : SpkIndex I) (tx : Tx) : Option Int :=
  (x.sentAndReceivedM b tx).bind fun sr => b.i64 (asI64 sr.2 - asI64 sr.1)

end SpkIndex

namespace FullTxOut
variable {P : Type} [LinearOrder P] [ChainPosition P]

/-- chain_data.rs:199-215 `is_mature`: the `debug_assert!(false)` is only in a debug build -/
def isMatureM (b : Build) (f : FullTxOut P) (height : Nat) : Option Bool :=
  if f.isOnCoinbase then
    match ChainPosition.height f.chainPosition with
    | .unconfirmed => match b with
      | .debug => none
      | .release => some false
    | .confirmed txHeight =>
      (b.unsigned 32 (((height - txHeight : Nat) : Int) + 1)).map fun a => !decide (a < coinbaseMaturity)
  else some true

/-- chain_data.rs:184-197 `is_spendable_at` -/
def isSpendableAtM (b : Build) (f : FullTxOut P) (height : Nat) : Option Bool :=
  (f.isMatureM b height).map fun m =>
    if !m then false
    else if ChainPosition.height f.chainPosition > TxHeight.confirmed height then false
    else match f.spentBy with
      | some (p, _) => decide (ChainPosition.height p > TxHeight.confirmed height)
      | none => true

end FullTxOut

namespace Balance

/-- keychain.rs:235-237 `trusted_spendable` -/
def trustedSpendableM (m : Build) (b : Balance) : Option Nat := m.unsigned 64 ((b.confirmed : Int) + b.trustedPending)

/-- keychain.rs:240-242 `total` -/
def totalM (m : Build) (b : Balance) : Option Nat :=
  m.sumU 64 b.confirmed [b.trustedPending, b.untrustedPending, b.immature]

/-- keychain.rs:255-266 `Add` -/
def addM (m : Build) (a b : Balance) : Option Balance :=
  (m.unsigned 64 ((a.immature : Int) + b.immature)).bind fun i =>
  (m.unsigned 64 ((a.trustedPending : Int) + b.trustedPending)).bind fun t =>
  (m.unsigned 64 ((a.untrustedPending : Int) + b.untrustedPending)).bind fun u =>
  (m.unsigned 64 ((a.confirmed : Int) + b.confirmed)).map fun c => ⟨i, t, u, c⟩

end Balance

namespace Tracker
variable {K D P T : Type} [LinearOrder K] [DescriptorOps D] [LinearOrder P] [ChainPosition P]
  [LinearOrder T] [AsTransaction T]

/-- tracker.rs:244-269: the body of the loop of `balance` -/
def balanceStepM (m : Build) (lastSync : Option Nat) (trust : K → Bool) (b : Balance) (e : (K × Nat) × FullTxOut P) :
    Option Balance :=
  match ChainPosition.height e.2.chainPosition with
  | .confirmed _ =>
    if e.2.isOnCoinbase then
      lastSync.bind fun h =>
      (e.2.isMatureM m h).bind fun mature =>
      if mature then (m.unsigned 64 ((b.confirmed : Int) + e.2.txout.value)).map fun c => { b with confirmed := c }
      else (m.unsigned 64 ((b.immature : Int) + e.2.txout.value)).map fun c => { b with immature := c }
    else (m.unsigned 64 ((b.confirmed : Int) + e.2.txout.value)).map fun c => { b with confirmed := c }
  | .unconfirmed =>
    if trust e.1.1 then
      (m.unsigned 64 ((b.trustedPending : Int) + e.2.txout.value)).map fun c => { b with trustedPending := c }
    else (m.unsigned 64 ((b.untrustedPending : Int) + e.2.txout.value)).map fun c => { b with untrustedPending := c }

/-- tracker.rs:238-278 `balance` -/
def balanceM (m : Build) (t : Tracker K D P T) (so : SpendOrder) (trust : K → Bool) : Option Balance :=
  (t.fullUtxos so).foldlM (balanceStepM m (t.chainGraph.chain.latestCheckpoint.map BlockId.height) trust) Balance.zero

/-- tracker.rs:282-287 `balance_at` -/
def balanceAtM (m : Build) (t : Tracker K D P T) (so : SpendOrder) (height : Nat) : Option Nat :=
  (t.fullTxouts so).foldlM (fun s e => (e.2.isSpendableAtM m height).bind fun ok =>
    if ok then m.unsigned 64 ((s : Int) + e.2.txout.value) else some s) 0

end Tracker
end Verif
