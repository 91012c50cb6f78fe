import Verif.Model.Esplora
import Verif.Model.ElectrumUpdate

/-!
# Model of the `Scan` and `Sync` commands of the example wallets (bdk_esplora_example, bdk_electrum_example)

What is printed is not modelled (nor that `Sync` panics in `Address::from_script(..).unwrap()` when it prints a script that has
no address).  The wallet does not change between the two critical sections of a command: the programs run one command per
process.  The changeset that a command writes to the database is covered by `Verif.Model.Cli` (C54), where the update is
arbitrary.
-/

namespace Verif.Sync
open Verif
variable {K D P T : Type} [LinearOrder K] [DescriptorOps D] [LinearOrder P] [ChainPosition P] [LinearOrder T] [AsTransaction T]

/-- bdk_esplora_example/src/main.rs:28-47 and bdk_electrum_example/src/main.rs:30-49: the flags of `Sync` -/
structure Flags where
  unusedSpks : Bool
  utxos : Bool
  unconfirmed : Bool
  allSpks : Bool
deriving DecidableEq, Repr

/-- bdk_esplora_example/src/main.rs:140-146, bdk_electrum_example/src/main.rs:133-139 -/
def Flags.resolve (f : Flags) : Flags :=
  if !(f.allSpks || f.unusedSpks || f.utxos || f.unconfirmed) then { f with unusedSpks := true, unconfirmed := true, utxos := true }
  else if f.allSpks then { f with unusedSpks := false }
  else f

/-- bdk_chain/src/keychain/txout_index.rs:238-250 `spks_of_all_keychains` (the iterators as lists) -/
def spksOfAllKeychains (s : KeychainIndex K D) : OMap K (List (Nat × Script)) :=
  s.keychains.mapVal fun _ d => rangeDescriptorSpks d (List.range (u32Max + 1))

/-- bdk_esplora_example/src/main.rs:148-178, bdk_electrum_example/src/main.rs:141-171: the scripts `Sync` asks for;
`none` = panic -/
def syncSpks (t : Tracker K D P T) (f : Flags) : Option (List Script) := do
  let unused ← if f.unusedSpks then (t.txoutIndex.inner.unusedSpks .unbounded .unbounded).bind (fun l => l.mapM Prod.snd) else some []
  return (if f.allSpks then t.txoutIndex.inner.spks.entries.map Prod.snd else []) ++ unused

/-- bdk_esplora_example/src/main.rs:180-197, bdk_electrum_example/src/main.rs:173-190: the outpoints `Sync` asks for -/
def syncOutpoints (t : Tracker K D P T) (so : SpendOrder) (f : Flags) : List OutPoint :=
  if f.utxos then (t.fullUtxos so).map (fun e => e.2.outpoint) else []

/-- bdk_esplora_example/src/main.rs:199-211, bdk_electrum_example/src/main.rs:192-204: the transactions `Sync` asks for;
`none` = panic -/
def syncTxids (t : Tracker K D P T) (f : Flags) : Option (List Txid) :=
  if f.unconfirmed then
    (t.chainGraph.chain.rangeTxidsByHeight (.included .unconfirmed) .unbounded).map (fun l => l.map Prod.snd)
  else some []

/-- bdk_chain/src/keychain.rs:120-127 `impl From<ChainGraph<P, T>> for KeychainScan<K, P, T>` -/
def scanOfGraph (u : ChainGraph P T) : KeychainScan K P T := ⟨u, OMap.empty⟩

/-- `tracker.apply_update(..)?` at the end of a command -/
def finish (t : Tracker K D P T) (o : Orders P T) (r : Esplora.Out (KeychainScan K P T)) :
    Esplora.Out (Tracker K D P T × Except (CGUpdateError P) (KeychainChangeSet K P T)) :=
  match r with
  | .ok sc =>
    match t.applyUpdate sc o with
    | some x => .ok x
    | none => .panic
  | .error => .error
  | .panic => .panic
  | .pending => .pending

/-- bdk_esplora_example/src/main.rs:76-129 `Scan`: the new state of the wallet and the result of `apply_update`.  `o` is the
iteration order of the hash containers during the scan, `o'` when the update is applied; `fuel`, `rounds` as in
`Esplora.scan`. -/
def esploraScan (s : Esplora.Server T) (o o' : Orders ConfirmationTime T) (t : Tracker K D ConfirmationTime T)
    (gap par fuel rounds time : Nat) :
    Esplora.Out (Tracker K D ConfirmationTime T × Except (CGUpdateError ConfirmationTime) (KeychainChangeSet K ConfirmationTime T)) :=
  finish t o' (Esplora.scan s o t.chainGraph.chain.checkpoints par fuel rounds K (spksOfAllKeychains t.txoutIndex) [] [] gap time)

/-- the update as a `KeychainScan` -/
def mapOut {α β : Type} (f : α → β) : Esplora.Out α → Esplora.Out β
  | .ok a => .ok (f a)
  | .error => .error
  | .panic => .panic
  | .pending => .pending

/-- bdk_esplora_example/src/main.rs:130-236 `Sync` -/
def esploraSync (s : Esplora.Server T) (o o' : Orders ConfirmationTime T) (so : SpendOrder) (t : Tracker K D ConfirmationTime T)
    (f : Flags) (par fuel rounds time : Nat) :
    Esplora.Out (Tracker K D ConfirmationTime T × Except (CGUpdateError ConfirmationTime) (KeychainChangeSet K ConfirmationTime T)) :=
  match syncSpks t f.resolve, syncTxids t f.resolve with
  | some spks, some txids =>
    finish t o' (mapOut scanOfGraph (Esplora.scanWithoutKeychain s o t.chainGraph.chain.checkpoints spks txids
      (syncOutpoints t so f.resolve) par fuel rounds time))
  | _, _ => .panic

end Verif.Sync
