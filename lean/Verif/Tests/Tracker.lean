import Verif.Model.Tracker
import Verif.Tests.Common

/-!
# The unit tests of the repository, run on the model: bdk_chain/tests/test_keychain_tracker.rs

These are not proofs of properties, but a check that the model behaves as the authors of the code say that the code does: each
example is one of their tests, transcribed.  A `guard` that fails (or a panic) makes the whole `none`.
-/

namespace Verif.Tests.Tracker
open Verif Verif.Tests

/-- the descriptors `one` and `two`; scripts `2 i` and `2 i + 1` -/
inductive Desc where
  | one | two
deriving DecidableEq

instance : DescriptorOps Desc where
  hasWildcard _ := true
  spkAt
    | .one, i => some (2 * i)
    | .two, i => some (2 * i + 1)

/-- the transaction of `test_insert_tx` pays to script 5 of the descriptor -/
def pay : Fin 1 → Tx := fun _ => ⟨7, [], [⟨100000, 10⟩], by decide⟩

/-- `test_insert_tx` (the position type there is `ConfirmationTime`) -/
example : (do
    let t : Verif.Tracker Unit Desc ConfirmationTime (TT pay) ← Tracker.empty.addKeychain () Desc.one
    let i ← t.txoutIndex.revealToTarget () 5
    let t := { t with txoutIndex := i.1 }
    match t.insertTxPreview ⟨0⟩ .unconfirmed (Orders.id _ _) with
    | .ok cs => do
      let t ← t.applyChangeset cs
      guard (t.chainGraph.transactionsInChain = [some (.unconfirmed, ⟨0⟩)])
      guard (t.txoutIndex.txoutsOfKeychain () = some [(5, ⟨7, 0⟩)])
    | _ => none) = some () := by decide +kernel

/-- `tx1`, `tx2`, `tx_coinbase` -/
def bal : Fin 3 → Tx
  | 0 => ⟨7, [], [⟨13000, 0⟩], by decide⟩
  | 1 => ⟨6, [], [⟨7000, 1⟩], by decide⟩
  | 2 => ⟨5, [nullOut], [⟨11000, 3⟩], by decide⟩

abbrev Tr := Verif.Tracker Nat Desc TxHeight (TT bal)

/-- `insert_checkpoint(..).unwrap()` -/
def cp (t : Tr) (h hash : Nat) : Option Tr :=
  match t.insertCheckpoint ⟨h, hash⟩ (Orders.id _ _) with
  | some (t', .ok _) => some t'
  | _ => none

/-- `insert_tx(..).unwrap()` -/
def tx (t : Tr) (i : Fin 3) (p : TxHeight) : Option Tr :=
  match t.insertTx ⟨i⟩ p (Orders.id _ _) with
  | some (t', .ok _) => some t'
  | _ => none

/-- the balances of `test_balance` (immature, trusted pending, untrusted pending, confirmed) -/
def check (t : Tr) (b : Balance) : Option Unit := guard (t.balance so (fun k => k == 1) = some b)

/-- `test_balance` -/
example : (do
    let t : Tr ← Tracker.empty.addKeychain 0 Desc.one
    let t ← t.addKeychain 1 Desc.two
    let r ← t.txoutIndex.revealNextSpk 0
    guard (r.2.1.2 = 0)
    let r ← r.1.revealNextSpk 1
    guard (r.2.1.2 = 1)
    let r ← r.1.revealNextSpk 1
    guard (r.2.1.2 = 3)
    guard (bal 2).isCoinBase
    let t ← cp { t with txoutIndex := r.1 } 5 1
    check t .zero
    let t ← tx t 0 .unconfirmed
    check t { Balance.zero with untrustedPending := 13000 }
    let t ← tx t 1 .unconfirmed
    check t { Balance.zero with trustedPending := 7000, untrustedPending := 13000 }
    let t ← tx t 2 (.confirmed 0)
    check t { Balance.zero with trustedPending := 7000, untrustedPending := 13000, immature := 11000 }
    let t ← tx t 0 (.confirmed 1)
    check t { Balance.zero with trustedPending := 7000, immature := 11000, confirmed := 13000 }
    let t ← tx t 1 (.confirmed 2)
    check t { Balance.zero with immature := 11000, confirmed := 20000 }
    let t ← cp t 98 98
    check t { Balance.zero with immature := 11000, confirmed := 20000 }
    let t ← cp t 99 99
    check t { Balance.zero with confirmed := 31000 }
    guard ([0, 1, 2, 98, 99, 100].map (t.balanceAt so) = [some 0, some 13000, some 20000, some 20000, some 31000, some 31000])) = some () := by
  decide +kernel

end Verif.Tests.Tracker
