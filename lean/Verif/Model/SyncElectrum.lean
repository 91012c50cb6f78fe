import Verif.Model.Sync

/-!
# Model of the `Scan` and `Sync` commands of bdk_electrum_example

As in `Verif.Model.Sync`: printing is not modelled (nor the panic of `Address::from_script(..).unwrap()`), and the wallet does not
change between the critical sections of one command.  The order "determine the changeset, write it, apply it" and failing writes are
covered by `Verif.Model.Cli` (C54); here the write succeeds.
-/

namespace Verif.Sync
open Verif
variable {K D T : Type} [LinearOrder K] [DescriptorOps D] [LinearOrder T] [AsTransaction T]

/-- bdk_electrum_example/src/main.rs:232-251: fetch the missing transactions, make the wallet update of them, apply it.  `get` answers
`batch_transaction_get`; every `?` is `error`, but for that of `determine_changeset`, which is the result of the second component. -/
def electrumFinish (t : Tracker K D TxHeight T) (o : Orders TxHeight T) (so : SpendOrder) (get : Txid → Option T)
    (r : Electrum.Out (Electrum.ElectrumUpdate K TxHeight)) :
    Electrum.Out (Tracker K D TxHeight T × Except (CGUpdateError TxHeight) (KeychainChangeSet K TxHeight T)) :=
  match r with
  | .ok e =>
    match e.fetch t.chainGraph get with
    | none => .error
    | some txs =>
      match e.intoKeychainScan txs t.chainGraph so with
      | .error _ => .error
      | .ok sc =>
        match t.applyUpdate sc o with
        | some x => .ok x
        | none => .panic
  | .reorg => .reorg
  | .error => .error
  | .panic => .panic
  | .pending => .pending

/-- bdk_electrum_example/src/main.rs:84-121 `Scan` and 232-251.  `ho` is the iteration order of the hash containers during the scan, `so`
when the update is put together, `o` when it is applied. -/
def electrumScan (s : Electrum.Server) (get : Txid → Option T) (ho : Electrum.Order) (so : SpendOrder) (o : Orders TxHeight T)
    (t : Tracker K D TxHeight T) (gap batchSize rounds time : Nat) :
    Electrum.Out (Tracker K D TxHeight T × Except (CGUpdateError TxHeight) (KeychainChangeSet K TxHeight T)) :=
  electrumFinish t o so get
    (Electrum.scan s ho t.chainGraph.chain.checkpoints (spksOfAllKeychains t.txoutIndex) [] [] gap batchSize rounds time)

/-- bdk_electrum_example/src/main.rs:213-228: the chain update with no last active indices (`..Default::default()`) -/
def updateOfChain (r : Electrum.Out Electrum.Update) : Electrum.Out (Electrum.ElectrumUpdate K TxHeight) :=
  match r with
  | .ok u => .ok ⟨u, OMap.empty⟩
  | .reorg => .reorg
  | .error => .error
  | .panic => .panic
  | .pending => .pending

/-- bdk_electrum_example/src/main.rs:122-230 `Sync` and 232-251 -/
def electrumSync (s : Electrum.Server) (get : Txid → Option T) (ho : Electrum.Order) (so so' : SpendOrder) (o : Orders TxHeight T)
    (t : Tracker K D TxHeight T) (f : Flags) (batchSize rounds time : Nat) :
    Electrum.Out (Tracker K D TxHeight T × Except (CGUpdateError TxHeight) (KeychainChangeSet K TxHeight T)) :=
  match syncSpks t f.resolve, syncTxids t f.resolve with
  | some spks, some txids =>
    electrumFinish t o so' get (updateOfChain (Electrum.scanWithoutKeychain s ho t.chainGraph.chain.checkpoints spks txids
      (syncOutpoints t so f.resolve) batchSize rounds time))
  | _, _ => .panic

end Verif.Sync
