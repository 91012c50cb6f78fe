import Verif.Model.ChainGraph
import Verif.Model.KeychainIndex

/-!
# Model of `KeychainTracker` (bdk_chain/src/keychain/tracker.rs), of `KeychainScan`, `KeychainChangeSet` and `Balance`
(bdk_chain/src/keychain.rs) and of the methods of `FullTxOut` (bdk_chain/src/chain_data.rs)

A debug build: `none` is a panic (failed `debug_assert!`, `expect`, or overflow).
-/

namespace Verif

/-- bdk_chain/src/lib.rs:89 `COINBASE_MATURITY` -/
def coinbaseMaturity : Nat := 100

/-- checked `u64` addition; `none` = overflow panic -/
def addU64 (a b : Nat) : Option Nat := if a + b ≤ u64Max then some (a + b) else none

namespace FullTxOut
variable {P : Type} [LinearOrder P] [ChainPosition P]

/-- chain_data.rs:199-215 `is_mature` -/
def isMature (f : FullTxOut P) (height : Nat) : Option Bool :=
  if f.isOnCoinbase then
    match ChainPosition.height f.chainPosition with
    | .unconfirmed => none
    | .confirmed txHeight => do
      let a ← addU32 (height - txHeight) 1
      return !decide (a < coinbaseMaturity)
  else some true

/-- chain_data.rs:184-197 `is_spendable_at` -/
def isSpendableAt (f : FullTxOut P) (height : Nat) : Option Bool := do
  let m ← f.isMature height
  if !m then return false
  else if ChainPosition.height f.chainPosition > TxHeight.confirmed height then return false
  else match f.spentBy with
    | some (p, _) => return decide (ChainPosition.height p > TxHeight.confirmed height)
    | none => return true
end FullTxOut

/-- keychain.rs:103-108 `struct KeychainScan` -/
structure KeychainScan (K P T : Type) [LinearOrder K] [LinearOrder P] where
  update : ChainGraph P T
  lastActiveIndices : OMap K Nat

/-- keychain.rs:144-149 `struct KeychainChangeSet` -/
structure KeychainChangeSet (K P T : Type) [LinearOrder K] [LinearOrder P] [LinearOrder T] where
  derivationIndices : DerivationAdditions K
  chainGraph : CGChangeSet P T
deriving DecidableEq

namespace KeychainChangeSet
variable {K P T : Type} [LinearOrder K] [LinearOrder P] [LinearOrder T]
/-- keychain.rs:151-158 `Default` -/
def empty : KeychainChangeSet K P T := ⟨OMap.empty, CGChangeSet.empty⟩
/-- keychain.rs:162-164 `is_empty` -/
def isEmpty (c : KeychainChangeSet K P T) : Bool := c.chainGraph.isEmpty && c.derivationIndices.isEmpty
/-- keychain.rs:171-179 `append` -/
def append (a b : KeychainChangeSet K P T) : KeychainChangeSet K P T :=
  ⟨DerivationAdditions.append a.derivationIndices b.derivationIndices, a.chainGraph.append b.chainGraph⟩
/-- keychain.rs:191-198 `From<DerivationAdditions>` -/
def ofAdditions (a : DerivationAdditions K) : KeychainChangeSet K P T := ⟨a, CGChangeSet.empty⟩
/-- keychain.rs:182-189 `From<chain_graph::ChangeSet>`, and the struct literals of tracker.rs:170-173 and 202-205 -/
def ofChainGraph (c : CGChangeSet P T) : KeychainChangeSet K P T := ⟨OMap.empty, c⟩
end KeychainChangeSet

/-- keychain.rs:219-228 `struct Balance` -/
structure Balance where
  immature : Nat
  trustedPending : Nat
  untrustedPending : Nat
  confirmed : Nat
deriving DecidableEq, Repr

namespace Balance
/-- keychain.rs:218 derived `Default` -/
def zero : Balance := ⟨0, 0, 0, 0⟩
/-- keychain.rs:235-237 `trusted_spendable` -/
def trustedSpendable (b : Balance) : Option Nat := addU64 b.confirmed b.trustedPending
/-- keychain.rs:240-242 `total` -/
def total (b : Balance) : Option Nat := do
  let x ← addU64 b.confirmed b.trustedPending
  let y ← addU64 x b.untrustedPending
  addU64 y b.immature
/-- keychain.rs:255-266 `Add` -/
def add (a b : Balance) : Option Balance := do
  let i ← addU64 a.immature b.immature
  let t ← addU64 a.trustedPending b.trustedPending
  let u ← addU64 a.untrustedPending b.untrustedPending
  let c ← addU64 a.confirmed b.confirmed
  return ⟨i, t, u, c⟩
end Balance

/-- tracker.rs:20-24 `struct KeychainTracker` -/
structure Tracker (K D P T : Type) [LinearOrder K] [LinearOrder P] where
  txoutIndex : KeychainIndex K D
  chainGraph : ChainGraph P T
deriving DecidableEq

namespace Tracker
variable {K D P T : Type} [LinearOrder K] [DescriptorOps D] [LinearOrder P] [ChainPosition P]
  [LinearOrder T] [AsTransaction T]

/-- tracker.rs:290-297 `Default` -/
def empty : Tracker K D P T := ⟨KeychainIndex.empty, ChainGraph.empty⟩

/-- tracker.rs:38-40 `add_keychain` -/
def addKeychain [DecidableEq D] (t : Tracker K D P T) (k : K) (d : D) : Option (Tracker K D P T) :=
  (t.txoutIndex.addKeychain k d).map (fun i => { t with txoutIndex := i })

/-- tracker.rs:58-60 `set_checkpoint_limit` -/
def setCheckpointLimit (t : Tracker K D P T) (l : Option Nat) : Tracker K D P T :=
  { t with chainGraph := t.chainGraph.setCheckpointLimit l }

/-- tracker.rs:73-80: the `retain` -/
def newIndices (t : Tracker K D P T) (m : OMap K Nat) : DerivationAdditions K :=
  OMap.filter m (fun k i => match t.txoutIndex.lastRevealedIndex k with
    | some existing => decide (i > existing)
    | none => true)

/-- tracker.rs:66-86 `determine_changeset` -/
def determineChangeset (t : Tracker K D P T) (scan : KeychainScan K P T) (o : Orders P T) :
    Res (CGUpdateError P) (KeychainChangeSet K P T) :=
  match t.chainGraph.determineChangeset scan.update o with
  | .panic => .panic
  | .err e => .err e
  | .ok cs => .ok ⟨t.newIndices scan.lastActiveIndices, cs⟩

/-- tracker.rs:110-118 `apply_changeset` -/
def applyChangeset (t : Tracker K D P T) (cs : KeychainChangeSet K P T) : Option (Tracker K D P T) := do
  let i ← t.txoutIndex.applyAdditions cs.derivationIndices
  let r ← i.scan cs.chainGraph.graph.txouts
  return ⟨r.1, t.chainGraph.applyChangeset cs.chainGraph⟩

/-- a call that computes a changeset and applies it: new state and result; `none` = panic -/
def applyOk {ε : Type} (t : Tracker K D P T) (r : Res ε (KeychainChangeSet K P T)) :
    Option (Tracker K D P T × Except ε (KeychainChangeSet K P T)) :=
  match r with
  | .panic => none
  | .err e => some (t, .error e)
  | .ok cs => (t.applyChangeset cs).map (fun t' => (t', .ok cs))

/-- tracker.rs:94-104 `apply_update` -/
def applyUpdate (t : Tracker K D P T) (scan : KeychainScan K P T) (o : Orders P T) :
    Option (Tracker K D P T × Except (CGUpdateError P) (KeychainChangeSet K P T)) :=
  t.applyOk (t.determineChangeset scan o)

/-- tracker.rs:166-174 `insert_checkpoint_preview` -/
def insertCheckpointPreview (t : Tracker K D P T) (b : BlockId) (o : Orders P T) :
    Res InsertCheckpointError (KeychainChangeSet K P T) :=
  match t.chainGraph.insertCheckpointPreview b o with
  | .panic => .panic
  | .err e => .err e
  | .ok cs => .ok (.ofChainGraph cs)

/-- tracker.rs:183-190 `insert_checkpoint` -/
def insertCheckpoint (t : Tracker K D P T) (b : BlockId) (o : Orders P T) :
    Option (Tracker K D P T × Except InsertCheckpointError (KeychainChangeSet K P T)) :=
  t.applyOk (t.insertCheckpointPreview b o)

/-- tracker.rs:197-206 `insert_tx_preview` -/
def insertTxPreview (t : Tracker K D P T) (tx : T) (pos : P) (o : Orders P T) :
    Res (CGInsertTxError P) (KeychainChangeSet K P T) :=
  match t.chainGraph.insertTxPreview tx pos o with
  | .panic => .panic
  | .err e => .err e
  | .ok cs => .ok (.ofChainGraph cs)

/-- tracker.rs:215-223 `insert_tx` -/
def insertTx (t : Tracker K D P T) (tx : T) (pos : P) (o : Orders P T) :
    Option (Tracker K D P T × Except (CGInsertTxError P) (KeychainChangeSet K P T)) :=
  t.applyOk (t.insertTxPreview tx pos o)

/-- tracker.rs:125-129 `full_txouts` -/
def fullTxouts (t : Tracker K D P T) (so : SpendOrder) : List ((K × Nat) × FullTxOut P) :=
  t.txoutIndex.inner.allTxouts.filterMap (fun e => (t.chainGraph.fullTxout so e.2.1).map (fun f => (ofLex e.1, f)))

/-- tracker.rs:136-139 `full_utxos` -/
def fullUtxos (t : Tracker K D P T) (so : SpendOrder) : List ((K × Nat) × FullTxOut P) :=
  (t.fullTxouts so).filter (fun e => e.2.spentBy.isNone)

/-- tracker.rs:244-269: the body of the loop of `balance` (`should_trust` is a function of the keychain) -/
def balanceStep (lastSync : Option Nat) (trust : K → Bool) (b : Balance) (e : (K × Nat) × FullTxOut P) : Option Balance :=
  match ChainPosition.height e.2.chainPosition with
  | .confirmed _ =>
    if e.2.isOnCoinbase then do
      let h ← lastSync
      if ← e.2.isMature h then return { b with confirmed := ← addU64 b.confirmed e.2.txout.value }
      else return { b with immature := ← addU64 b.immature e.2.txout.value }
    else do return { b with confirmed := ← addU64 b.confirmed e.2.txout.value }
  | .unconfirmed =>
    if trust e.1.1 then do return { b with trustedPending := ← addU64 b.trustedPending e.2.txout.value }
    else do return { b with untrustedPending := ← addU64 b.untrustedPending e.2.txout.value }

/-- tracker.rs:238-278 `balance` -/
def balance (t : Tracker K D P T) (so : SpendOrder) (trust : K → Bool) : Option Balance :=
  (t.fullUtxos so).foldlM (balanceStep (t.chainGraph.chain.latestCheckpoint.map BlockId.height) trust) Balance.zero

/-- tracker.rs:282-287 `balance_at` -/
def balanceAt (t : Tracker K D P T) (so : SpendOrder) (height : Nat) : Option Nat :=
  (t.fullTxouts so).foldlM (fun s e => do
    if ← e.2.isSpendableAt height then addU64 s e.2.txout.value else return s) 0

/-- A call by the owner of a tracker whose keychains and lookahead are set up: the methods of the tracker that report
changesets, and the methods of its public field `txout_index` that reveal or mark scripts and report additions -/
inductive Op (K P T : Type) [LinearOrder K] [LinearOrder P] where
  | applyUpdate (scan : KeychainScan K P T) (o : Orders P T)
  | insertTx (tx : T) (pos : P) (o : Orders P T)
  | insertCheckpoint (b : BlockId) (o : Orders P T)
  | revealToTarget (k : K) (n : Nat)
  | revealToTargetMulti (m : OMap K Nat)
  | revealNextSpk (k : K)
  | revealAndReserveNextSpk (k : K)
  | nextUnusedSpk (k : K)
  | reserveNextUnusedSpk (k : K)
  | markUsed (k : K) (i : Nat)
  | unmarkUsed (k : K) (i : Nat)

/-- the state and the changeset handed to the persistence layer (`None` when the call failed) -/
def logged {ε : Type} (r : Tracker K D P T × Except ε (KeychainChangeSet K P T)) :
    Tracker K D P T × Option (KeychainChangeSet K P T) :=
  (r.1, match r.2 with | .ok cs => some cs | .error _ => none)

/-- a call of a method of `txout_index`, its additions converted by `KeychainChangeSet::from` -/
def viaIndex (t : Tracker K D P T) (r : Option (KeychainIndex K D × DerivationAdditions K)) :
    Option (Tracker K D P T × Option (KeychainChangeSet K P T)) :=
  r.map (fun r => ({ t with txoutIndex := r.1 }, some (.ofAdditions r.2)))

/-- one call -/
def step (t : Tracker K D P T) : Op K P T → Option (Tracker K D P T × Option (KeychainChangeSet K P T))
  | .applyUpdate scan o => (t.applyUpdate scan o).map logged
  | .insertTx tx pos o => (t.insertTx tx pos o).map logged
  | .insertCheckpoint b o => (t.insertCheckpoint b o).map logged
  | .revealToTarget k n => t.viaIndex ((t.txoutIndex.revealToTarget k n).map (fun r => (r.1, r.2.2)))
  | .revealToTargetMulti m => t.viaIndex ((t.txoutIndex.revealToTargetMulti m).map (fun r => (r.1, r.2.2)))
  | .revealNextSpk k => t.viaIndex ((t.txoutIndex.revealNextSpk k).map (fun r => (r.1, r.2.2)))
  | .revealAndReserveNextSpk k => t.viaIndex ((t.txoutIndex.revealAndReserveNextSpk k).map (fun r => (r.1, r.2.2)))
  | .nextUnusedSpk k => t.viaIndex ((t.txoutIndex.nextUnusedSpk k).map (fun r => (r.1, r.2.2)))
  | .reserveNextUnusedSpk k => t.viaIndex ((t.txoutIndex.reserveNextUnusedSpk k).map (fun r => (r.1, r.2.2)))
  | .markUsed k i => t.viaIndex (some ((t.txoutIndex.markUsed k i).1, OMap.empty))
  | .unmarkUsed k i => t.viaIndex (some ((t.txoutIndex.unmarkUsed k i).1, OMap.empty))

/-- a sequence of calls: final state and the changesets reported, in order; `none` = one of them panicked -/
def runFrom (t : Tracker K D P T) : List (Op K P T) → Option (Tracker K D P T × List (KeychainChangeSet K P T))
  | [] => some (t, [])
  | op :: l => do
    let r ← t.step op
    let r' ← runFrom r.1 l
    return (r'.1, r.2.toList ++ r'.2)

/-- Every tracker a caller can build with the public methods: any method of the public `txout_index`, and the methods of
the tracker (`apply_changeset` only through them, as the documentation of `ChainGraph::apply_changeset` demands).
The chain graph in a scan is itself one a caller can build. -/
inductive Reachable [DecidableEq D] : Tracker K D P T → Prop where
  | empty : Reachable empty
  | index {t} (op : KeychainIndex.Op K D) (r) : Reachable t → t.txoutIndex.step op = some r →
      Reachable { t with txoutIndex := r.1 }
  | setCheckpointLimit {t} (l : Option Nat) : Reachable t → Reachable (t.setCheckpointLimit l)
  | applyUpdate {t} (scan : KeychainScan K P T) (o : Orders P T) (r) : Reachable t → scan.update.Reachable →
      t.applyUpdate scan o = some r → Reachable r.1
  | insertTx {t} (tx : T) (pos : P) (o : Orders P T) (r) : Reachable t → t.insertTx tx pos o = some r → Reachable r.1
  | insertCheckpoint {t} (b : BlockId) (o : Orders P T) (r) : Reachable t → t.insertCheckpoint b o = some r → Reachable r.1

/-- loading: the changesets applied one by one (file_store.rs:124-132 `load_into_keychain_tracker`) -/
def replay (t : Tracker K D P T) (log : List (KeychainChangeSet K P T)) : Option (Tracker K D P T) :=
  log.foldlM applyChangeset t

end Tracker
end Verif
