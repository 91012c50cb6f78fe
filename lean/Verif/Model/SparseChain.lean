import Verif.Base.Types

/-!
# Model of `SparseChain` (bdk_chain/src/sparse_chain.rs)

Functions that also need the transaction graph (`full_txout`, `spent_by`) are in `Verif.Model.ChainGraph`.
-/

namespace Verif

/-- Result of a Rust call that returns `Result<α, ε>` and may panic. -/
inductive Res (ε α : Type) where
  | ok (a : α)
  | err (e : ε)
  | panic
deriving DecidableEq, Repr

/-- `core::ops::Bound` -/
inductive Bound (α : Type) where
  | included (a : α)
  | excluded (a : α)
  | unbounded
deriving DecidableEq, Repr

namespace Bound
variable {α : Type} [LinearOrder α]
/-- the value satisfies the bound used as a start bound -/
def geB : Bound α → α → Bool
  | included a, x => decide (a ≤ x)
  | excluded a, x => decide (a < x)
  | unbounded, _ => true
/-- the value satisfies the bound used as an end bound -/
def leB : Bound α → α → Bool
  | included a, x => decide (x ≤ a)
  | excluded a, x => decide (x < a)
  | unbounded, _ => true
/-- `BTreeMap::range` panics "if range start > end" or "if range start == end and both bounds are Excluded" (its documentation;
current implementations do not check this on a map that has never held anything, see DESIGN.md) -/
def rangePanics : Bound α → Bound α → Bool
  | included a, included b => decide (b < a)
  | included a, excluded b => decide (b < a)
  | excluded a, included b => decide (b < a)
  | excluded a, excluded b => decide (b ≤ a)
  | unbounded, _ => false
  | _, unbounded => false
end Bound

/-- sparse_chain.rs:236-245 `struct SparseChain<P>` -/
structure SparseChain (P : Type) [LinearOrder P] where
  checkpoints : OMap Nat BlockHash
  orderedTxids : OSet (P ×ₗ Txid)
  txidToPos : OMap Txid P
  checkpointLimit : Option Nat
deriving DecidableEq

/-- sparse_chain.rs:904-907 `struct ChangeSet<P>` -/
structure ChangeSet (P : Type) [LinearOrder P] where
  checkpoints : OMap Nat (Option BlockHash)
  txids : OMap Txid (Option P)
deriving DecidableEq

/-- sparse_chain.rs:327-341 `enum UpdateError<P>` -/
inductive UpdateError (P : Type) where
  | notConnected (height : Nat)
  | txInconsistent (txid : Txid) (originalPos updatePos : P)
deriving DecidableEq

/-- sparse_chain.rs:266-281 `enum InsertTxError<P>` -/
inductive InsertTxError (P : Type) where
  | txTooHigh (txid : Txid) (txHeight : Nat) (tipHeight : Option Nat)
  | txMovedUnexpectedly (txid : Txid) (originalPos updatePos : P)
deriving DecidableEq

/-- sparse_chain.rs:309-316 `enum InsertCheckpointError` -/
inductive InsertCheckpointError where
  | hashNotMatching (height : Nat) (originalHash updateHash : BlockHash)
deriving DecidableEq

namespace ChangeSet
variable {P : Type} [LinearOrder P]
/-- sparse_chain.rs:909-916 `Default for ChangeSet` -/
def empty : ChangeSet P := ⟨OMap.empty, OMap.empty⟩
/-- sparse_chain.rs:921-927 `ChangeSet::append` -/
def append (a b : ChangeSet P) : ChangeSet P :=
  ⟨a.checkpoints.append b.checkpoints, a.txids.append b.txids⟩
/-- sparse_chain.rs:930-932 `ChangeSet::is_empty` -/
def isEmpty (a : ChangeSet P) : Bool := a.checkpoints.isEmpty && a.txids.isEmpty
end ChangeSet

namespace SparseChain
variable {P : Type} [LinearOrder P]

/-- sparse_chain.rs:253-262 `Default for SparseChain` -/
def empty : SparseChain P := ⟨OMap.empty, OMap.empty, OMap.empty, none⟩

/-- sparse_chain.rs:365-375 `from_checkpoints` -/
def fromCheckpoints (l : List BlockId) : SparseChain P :=
  { empty with checkpoints := OMap.ofList (l.map (fun b => (b.height, b.hash))) }

/-- sparse_chain.rs:378-383 `latest_checkpoint` -/
def latestCheckpoint (c : SparseChain P) : Option BlockId :=
  c.checkpoints.last?.map (fun e => ⟨e.1, e.2⟩)

/-- sparse_chain.rs:386-390 `checkpoint_at` -/
def checkpointAt (c : SparseChain P) (h : Nat) : Option BlockId :=
  (c.checkpoints.get h).map (fun hash => ⟨h, hash⟩)

/-- sparse_chain.rs:395-397 `tx_position` -/
def txPosition (c : SparseChain P) (txid : Txid) : Option P := c.txidToPos.get txid

/-- sparse_chain.rs:405-412 `range_checkpoints` (filtered list; `none` is the BTreeMap range panic) -/
def rangeCheckpoints (c : SparseChain P) (lo hi : Bound Nat) : Option (List BlockId) :=
  if Bound.rangePanics lo hi then none
  else some ((c.checkpoints.entries.filter (fun e => lo.geB e.1 && hi.leB e.1)).map (fun e => ⟨e.1, e.2⟩))

/-- sparse_chain.rs:735-737 `txids` -/
def txids (c : SparseChain P) : List (P × Txid) := c.orderedTxids.toList.map ofLex

/-- `self.ordered_txids.range((lo, hi))` once the range is known not to panic -/
def rangeList (c : SparseChain P) (lo hi : Bound (P ×ₗ Txid)) : List (P × Txid) :=
  (c.orderedTxids.toList.filter (fun e => lo.geB e && hi.leB e)).map ofLex

/-- sparse_chain.rs:740-752 `range_txids`; `none` is the panic of `BTreeSet::range` -/
def rangeTxids (c : SparseChain P) (lo hi : Bound (P ×ₗ Txid)) : Option (List (P × Txid)) :=
  if Bound.rangePanics lo hi then none else some (c.rangeList lo hi)

/-- sparse_chain.rs:763-767 `map_bound` of `range_txids_by_position` -/
def mapPosBound (b : Bound P) (inc exc : Txid) : Bound (P ×ₗ Txid) :=
  match b with
  | .included p => .included (toLex (p, inc))
  | .excluded p => .excluded (toLex (p, exc))
  | .unbounded => .unbounded

/-- sparse_chain.rs:756-773 `range_txids_by_position` -/
def rangeTxidsByPosition (c : SparseChain P) (lo hi : Bound P) : Option (List (P × Txid)) :=
  c.rangeTxids (mapPosBound lo minTxid maxTxid) (mapPosBound hi maxTxid minTxid)

variable [ChainPosition P]

/-- sparse_chain.rs:784-787 `ord_it` -/
def ordIt (h : TxHeight) (isMax : Bool) : P :=
  match isMax with
  | true => ChainPosition.maxOrd h
  | false => ChainPosition.minOrd h

/-- sparse_chain.rs:789-793 `map_bound` of `range_txids_by_height` -/
def mapHeightBound (b : Bound TxHeight) (inc exc : Bool × Txid) : Bound (P ×ₗ Txid) :=
  match b with
  | .included h => .included (toLex (ordIt h inc.1, inc.2))
  | .excluded h => .excluded (toLex (ordIt h exc.1, exc.2))
  | .unbounded => .unbounded

/-- sparse_chain.rs:796 start bound -/
def heightLo (lo : Bound TxHeight) : Bound (P ×ₗ Txid) := mapHeightBound lo (false, minTxid) (true, maxTxid)
/-- sparse_chain.rs:797 end bound -/
def heightHi (hi : Bound TxHeight) : Bound (P ×ₗ Txid) := mapHeightBound hi (true, maxTxid) (false, minTxid)

/-- sparse_chain.rs:777-799 `range_txids_by_height`; `none` is the panic of `BTreeSet::range` -/
def rangeTxidsByHeight (c : SparseChain P) (lo hi : Bound TxHeight) : Option (List (P × Txid)) :=
  c.rangeTxids (heightLo lo) (heightHi hi)

/-- sparse_chain.rs:861-873 `prune_checkpoints` (the returned pruned map is dropped by both callers).
`last_height + 1` on `u32` overflows only for limit 0 and a checkpoint at `u32::MAX`; `Nat` here. -/
def pruneCheckpoints (c : SparseChain P) : SparseChain P :=
  match c.checkpointLimit with
  | none => c
  | some limit =>
    match c.checkpoints.keys.reverse[limit]? with
    | none => c
    | some lastHeight =>
      let keepHeight := lastHeight + 1
      { c with checkpoints := c.checkpoints.filter (fun h _ => decide (keepHeight ≤ h)) }

/-- sparse_chain.rs:523-528, one iteration of the checkpoint loop of `apply_changeset` -/
def applyCheckpoint (cps : OMap Nat BlockHash) (e : Nat × Option BlockHash) : OMap Nat BlockHash :=
  match e.2 with
  | some hash => cps.insert e.1 hash
  | none => cps.erase e.1

/-- sparse_chain.rs:530-541, one iteration of the txid loop of `apply_changeset` on
`(txid_to_pos, ordered_txids)` -/
def applyTx (s : OMap Txid P × OSet (P ×ₗ Txid)) (e : Txid × Option P) :
    OMap Txid P × OSet (P ×ₗ Txid) :=
  let originalPos := s.1.get e.1
  let toPos := s.1.erase e.1
  let ordered := match originalPos with
    | some pos => s.2.remove (toLex (pos, e.1))
    | none => s.2
  match e.2 with
  | some pos => (toPos.insert e.1 pos, ordered.add (toLex (pos, e.1)))
  | none => (toPos, ordered)

/-- sparse_chain.rs:522-544 `apply_changeset` -/
def applyChangeset (c : SparseChain P) (cs : ChangeSet P) : SparseChain P :=
  let checkpoints := cs.checkpoints.entries.foldl applyCheckpoint c.checkpoints
  let txs := cs.txids.entries.foldl applyTx (c.txidToPos, c.orderedTxids)
  pruneCheckpoints { c with checkpoints := checkpoints, txidToPos := txs.1, orderedTxids := txs.2 }

/-- sparse_chain.rs:550-563 `initial_changeset` -/
def initialChangeset (c : SparseChain P) : ChangeSet P :=
  { checkpoints := c.checkpoints.mapVal (fun _ hash => some hash)
    txids := OMap.ofList (c.txids.map (fun e => (e.2, some e.1))) }

/-- sparse_chain.rs:567-580 `invalidate_checkpoints_preview`.
The BTree ranges used here never panic (`Verif.Props.SparseChain.invalidate_range_ok`). -/
def invalidateCheckpointsPreview (c : SparseChain P) (fromHeight : Nat) : ChangeSet P :=
  { checkpoints := (c.checkpoints.filter (fun h _ => decide (fromHeight ≤ h))).mapVal (fun _ _ => none)
    txids := OMap.ofList ((c.rangeList (heightLo (.included (.confirmed fromHeight)))
        (heightHi (.excluded .unconfirmed))).map
      (fun e => (e.2, some (ChainPosition.maxOrd .unconfirmed)))) }

/-- sparse_chain.rs:589-593 `invalidate_checkpoints` -/
def invalidateCheckpoints (c : SparseChain P) (fromHeight : Nat) : SparseChain P × ChangeSet P :=
  let cs := c.invalidateCheckpointsPreview fromHeight
  (c.applyChangeset cs, cs)

/-- sparse_chain.rs:597-613 `clear_mempool_preview` (`Txid::all_zeros()` is the minimal txid) -/
def clearMempoolPreview (c : SparseChain P) : ChangeSet P :=
  { checkpoints := OMap.empty
    txids := OMap.ofList ((c.rangeList (.included (toLex (ChainPosition.minOrd .unconfirmed, minTxid)))
      .unbounded).map (fun e => (e.2, none))) }

/-- sparse_chain.rs:622-626 `clear_mempool` -/
def clearMempool (c : SparseChain P) : SparseChain P × ChangeSet P :=
  let cs := c.clearMempoolPreview
  (c.applyChangeset cs, cs)

/-- sparse_chain.rs:430-435: highest checkpoint of the update that `self` has with the same hash -/
def agreementPoint (self update : SparseChain P) : Option Nat :=
  (update.checkpoints.entries.reverse.find? (fun e => decide (self.checkpoints.get e.1 = some e.2))).map Prod.fst

/-- sparse_chain.rs:437 -/
def lastUpdateCp (update : SparseChain P) : Option Nat := update.checkpoints.last?.map Prod.fst

/-- sparse_chain.rs:440-446: lower bound of the invalidation range (`u32::MAX` is the sentinel for "none").
`h + 1` cannot overflow: it is only taken when a higher update checkpoint exists. -/
def invalidLb (self update : SparseChain P) : Nat :=
  if lastUpdateCp update = none ∨ lastUpdateCp update = agreementPoint self update then u32Max
  else match agreementPoint self update with
    | some h => h + 1
    | none => 0

/-- sparse_chain.rs:449: first checkpoint of `self` to invalidate -/
def invalidFrom (self update : SparseChain P) : Option Nat :=
  ((self.checkpoints.filter (fun h _ => decide (invalidLb self update ≤ h))).first?).map Prod.fst

/-- sparse_chain.rs:458-473: the first inconsistent tx met in iteration order -/
def findInconsistent (self update : SparseChain P) (ho : HashOrder (Txid × P)) : Option (UpdateError P) :=
  (ho.perm update.txidToPos.entries).findSome? (fun e =>
    match self.txidToPos.get e.1 with
    | some originalPos =>
      if ChainPosition.height originalPos < TxHeight.confirmed (invalidLb self update) ∧ originalPos ≠ e.2 then
        some (.txInconsistent e.1 originalPos e.2)
      else none
    | none => none)

/-- sparse_chain.rs:480-492, one iteration -/
def mergeCheckpoint (self : SparseChain P) (m : OMap Nat (Option BlockHash)) (e : Nat × BlockHash) :
    OMap Nat (Option BlockHash) :=
  let m' := m.insert e.1 (some e.2)
  if self.checkpoints.get e.1 = some e.2 then m'.erase e.1 else m'

/-- sparse_chain.rs:494-506, one iteration -/
def mergeTx (self : SparseChain P) (m : OMap Txid (Option P)) (e : Txid × P) : OMap Txid (Option P) :=
  let m' := m.insert e.1 (some e.2)
  if self.txidToPos.get e.1 = some e.2 then m'.erase e.1 else m'

/-- sparse_chain.rs:476-478: change-set of the checkpoints and txids that are "invalidated" -/
def baseChangeset (self update : SparseChain P) : ChangeSet P :=
  match invalidFrom self update with
  | some fromHeight => self.invalidateCheckpointsPreview fromHeight
  | none => ChangeSet.empty

/-- sparse_chain.rs:429-508 `determine_changeset`; `ho` is the iteration order of `update.txid_to_pos` -/
def determineChangeset (self update : SparseChain P) (ho : HashOrder (Txid × P)) :
    Except (UpdateError P) (ChangeSet P) :=
  let notConnected : Option Nat := match invalidFrom self update with
    | some firstInvalid => if update.checkpoints.contains firstInvalid then none else some firstInvalid
    | none => none
  match notConnected with
  | some h => .error (.notConnected h)
  | none =>
    match findInconsistent self update ho with
    | some e => .error e
    | none =>
      let cs := baseChangeset self update
      .ok { checkpoints := update.checkpoints.entries.foldl (mergeCheckpoint self) cs.checkpoints
            txids := (ho.perm update.txidToPos.entries).foldl (mergeTx self) cs.txids }

/-- sparse_chain.rs:516-520 `apply_update`: new state and result -/
def applyUpdate (self update : SparseChain P) (ho : HashOrder (Txid × P)) :
    SparseChain P × Except (UpdateError P) (ChangeSet P) :=
  match self.determineChangeset update ho with
  | .error e => (self, .error e)
  | .ok cs => (self.applyChangeset cs, .ok cs)

/-- sparse_chain.rs:635-640 and 694-699: the update seeded with the latest checkpoint -/
def tipUpdate (self : SparseChain P) : SparseChain P :=
  match self.latestCheckpoint with
  | some b => { empty with checkpoints := OMap.empty.insert b.height b.hash }
  | none => empty

/-- sparse_chain.rs:644 `Some(tx_height) > tip_height` -/
def aboveTip (txHeight : Nat) : Option Nat → Bool
  | none => true
  | some t => decide (t < txHeight)

/-- sparse_chain.rs:634-672 `insert_tx_preview` -/
def insertTxPreview (self : SparseChain P) (txid : Txid) (pos : P) (ho : HashOrder (Txid × P)) :
    Res (InsertTxError P) (ChangeSet P) :=
  let update := self.tipUpdate
  let tipHeight := self.checkpoints.last?.map Prod.fst
  let tooHigh : Option Nat := match ChainPosition.height pos with
    | .confirmed txHeight => if aboveTip txHeight tipHeight then some txHeight else none
    | .unconfirmed => none
  match tooHigh with
  | some txHeight => .err (.txTooHigh txid txHeight tipHeight)
  | none =>
    let update := { update with
      txidToPos := update.txidToPos.insert txid pos
      orderedTxids := update.orderedTxids.add (toLex (pos, txid)) }
    match self.determineChangeset update ho with
    | .ok cs => .ok cs
    | .error (.notConnected _) => .panic
    | .error (.txInconsistent t o u) => .err (.txMovedUnexpectedly t o u)

/-- the state after a call that, on success, applies the changeset it computed -/
def applyOk {ε : Type} (self : SparseChain P) (r : Res ε (ChangeSet P)) :
    SparseChain P × Res ε (ChangeSet P) :=
  match r with
  | .ok cs => (self.applyChangeset cs, .ok cs)
  | r => (self, r)

/-- sparse_chain.rs:680-684 `insert_tx` -/
def insertTx (self : SparseChain P) (txid : Txid) (pos : P) (ho : HashOrder (Txid × P)) :
    SparseChain P × Res (InsertTxError P) (ChangeSet P) :=
  self.applyOk (self.insertTxPreview txid pos ho)

/-- sparse_chain.rs:690-716 `insert_checkpoint_preview` -/
def insertCheckpointPreview (self : SparseChain P) (b : BlockId) (ho : HashOrder (Txid × P)) :
    Res InsertCheckpointError (ChangeSet P) :=
  let update := self.tipUpdate
  let mismatch : Option BlockHash := match update.checkpoints.get b.height with
    | some originalHash => if originalHash ≠ b.hash then some originalHash else none
    | none => none
  match mismatch with
  | some originalHash => .err (.hashNotMatching b.height originalHash b.hash)
  | none =>
    let update := { update with checkpoints := update.checkpoints.insert b.height b.hash }
    match self.determineChangeset update ho with
    | .ok cs => .ok cs
    | .error (.notConnected _) => .panic
    | .error (.txInconsistent _ _ _) => .panic

/-- sparse_chain.rs:725-732 `insert_checkpoint` -/
def insertCheckpoint (self : SparseChain P) (b : BlockId) (ho : HashOrder (Txid × P)) :
    SparseChain P × Res InsertCheckpointError (ChangeSet P) :=
  self.applyOk (self.insertCheckpointPreview b ho)

/-- sparse_chain.rs:841-844 `set_checkpoint_limit` -/
def setCheckpointLimit (c : SparseChain P) (limit : Option Nat) : SparseChain P :=
  pruneCheckpoints { c with checkpointLimit := limit }

/-- sparse_chain.rs:847-859 `changeset_additions` -/
def changesetAdditions (c : SparseChain P) (cs : ChangeSet P) : List Txid :=
  (cs.txids.entries.filter (fun e => e.2.isSome && (c.txPosition e.1).isNone)).map Prod.fst

/-- sparse_chain.rs:889-891 `is_empty` -/
def isEmpty (c : SparseChain P) : Bool := c.checkpoints.isEmpty && c.txidToPos.isEmpty

/-- One call of a public mutating method.  Each carries the hash iteration order of that call. -/
inductive Op (P : Type) [LinearOrder P] where
  | applyUpdate (update : SparseChain P) (ho : HashOrder (Txid × P))
  | applyChangeset (cs : ChangeSet P)
  | insertTx (txid : Txid) (pos : P) (ho : HashOrder (Txid × P))
  | insertCheckpoint (b : BlockId) (ho : HashOrder (Txid × P))
  | invalidateCheckpoints (fromHeight : Nat)
  | clearMempool
  | setCheckpointLimit (limit : Option Nat)

/-- state after the call -/
def step (c : SparseChain P) : Op P → SparseChain P
  | .applyUpdate u ho => (c.applyUpdate u ho).1
  | .applyChangeset cs => c.applyChangeset cs
  | .insertTx txid pos ho => (c.insertTx txid pos ho).1
  | .insertCheckpoint b ho => (c.insertCheckpoint b ho).1
  | .invalidateCheckpoints h => (c.invalidateCheckpoints h).1
  | .clearMempool => c.clearMempool.1
  | .setCheckpointLimit l => c.setCheckpointLimit l

/-- the changeset the call reports to its caller (empty for errors and `set_checkpoint_limit`) -/
def stepLog (c : SparseChain P) : Op P → ChangeSet P
  | .applyUpdate u ho => match (c.applyUpdate u ho).2 with | .ok cs => cs | .error _ => ChangeSet.empty
  | .applyChangeset cs => cs
  | .insertTx txid pos ho => match (c.insertTx txid pos ho).2 with | .ok cs => cs | _ => ChangeSet.empty
  | .insertCheckpoint b ho => match (c.insertCheckpoint b ho).2 with | .ok cs => cs | _ => ChangeSet.empty
  | .invalidateCheckpoints h => (c.invalidateCheckpoints h).2
  | .clearMempool => c.clearMempool.2
  | .setCheckpointLimit _ => ChangeSet.empty

/-- a history of calls -/
def run (c : SparseChain P) (ops : List (Op P)) : SparseChain P := ops.foldl step c

/-- the changesets reported along a history -/
def runLog (c : SparseChain P) : List (Op P) → List (ChangeSet P)
  | [] => []
  | op :: ops => c.stepLog op :: runLog (c.step op) ops

end SparseChain
end Verif
