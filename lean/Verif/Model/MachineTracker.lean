import Verif.Model.MachineIndex
import Verif.Model.Tracker

/-!
# `KeychainTracker` in a debug and in a release build

The methods of the tracker that report changesets, with the build as a parameter: the index calls are those of
`Model/MachineIndex`, and the `debug_assert!` of chain_graph.rs:334 exists in a debug build only.  The other assertions on the way
(sparse_chain.rs:639, 654, 657, 698, each about an insertion into a map that is empty up to then, and tx_graph.rs:253, the txid of
the transaction stored under that txid) are left out of both builds, and the height arithmetic is that of `Nat`
(`C71_invalidation_bound` and `C71_prune` say where it differs: for limit 0 and a checkpoint at `u32::MAX` only).
-/

namespace Verif

namespace ChainGraph
variable {P T : Type} [LinearOrder P] [ChainPosition P] [LinearOrder T] [AsTransaction T]

/-- chain_graph.rs:312-347 `chain_conflicts`: the `debug_assert!` of line 334, and `filter_map` dropping what is not found -/
def chainConflictsM (b : Build) (cg : ChainGraph P T) (cs : CGChangeSet P T) (so : SpendOrder) :
    List (Txid × P) → Option (List ((P × Txid) × (P × Txid)))
  | [] => some []
  | e :: l =>
    match cg.fullTxOf cs e.1 with
    | none => if b.assert false then chainConflictsM b cg cs so l else none
    | some x => (chainConflictsM b cg cs so l).map (fun r => cg.conflictsOfNew so e x ++ r)

/-- chain_graph.rs:308-382 `fix_conflicts` -/
def fixConflictsM (b : Build) (cg : ChainGraph P T) (cs : CGChangeSet P T) (so : SpendOrder) :
    Res (UnresolvableConflict P) (CGChangeSet P T) :=
  match cg.chainConflictsM b cs so (cg.newTxids cs) with
  | none => .panic
  | some l =>
    match resolve l cs.chain.txids with
    | .error e => .err e
    | .ok txids => .ok { cs with chain := { cs.chain with txids := txids } }

/-- chain_graph.rs:199-206 `insert_tx_preview` -/
def insertTxPreviewM (b : Build) (cg : ChainGraph P T) (t : T) (pos : P) (o : Orders P T) :
    Res (CGInsertTxError P) (CGChangeSet P T) :=
  match cg.chain.insertTxPreview (asTx t).txid pos o.chain with
  | .panic => .panic
  | .err e => .err (.chain e)
  | .ok cs =>
    match cg.fixConflictsM b ⟨cs, cg.graph.insertTxPreview t⟩ o.spend with
    | .panic => .panic
    | .err e => .err (.unresolvableConflict e)
    | .ok r => .ok r

/-- chain_graph.rs:267-286 `determine_changeset` -/
def determineChangesetM (b : Build) (cg u : ChainGraph P T) (o : Orders P T) : Res (CGUpdateError P) (CGChangeSet P T) :=
  match cg.chain.determineChangeset u.chain o.chain with
  | .error e => .err (.chain e)
  | .ok cs =>
    match cg.fixConflictsM b ⟨cs, cg.graph.determineAdditions u.graph o.graph⟩ o.spend with
    | .panic => .panic
    | .err e => .err (.unresolvableConflict e)
    | .ok r => .ok r

end ChainGraph

namespace Tracker
variable {K D P T : Type} [LinearOrder K] [DescriptorOps D] [LinearOrder P] [ChainPosition P]
  [LinearOrder T] [AsTransaction T]

/-- tracker.rs:66-86 `determine_changeset` -/
def determineChangesetM (b : Build) (t : Tracker K D P T) (scan : KeychainScan K P T) (o : Orders P T) :
    Res (CGUpdateError P) (KeychainChangeSet K P T) :=
  match t.chainGraph.determineChangesetM b scan.update o with
  | .panic => .panic
  | .err e => .err e
  | .ok cs => .ok ⟨t.newIndices scan.lastActiveIndices, cs⟩

/-- tracker.rs:110-118 `apply_changeset` -/
def applyChangesetM (b : Build) (t : Tracker K D P T) (cs : KeychainChangeSet K P T) : Option (Tracker K D P T) := do
  let i ← t.txoutIndex.revealToTargetMultiM b cs.derivationIndices
  let r ← i.1.scanM b cs.chainGraph.graph.txouts
  return ⟨r.1, t.chainGraph.applyChangeset cs.chainGraph⟩

/-- a call that computes a changeset and applies it -/
def applyOkM (b : Build) {ε : Type} (t : Tracker K D P T) (r : Res ε (KeychainChangeSet K P T)) :
    Option (Tracker K D P T × Except ε (KeychainChangeSet K P T)) :=
  match r with
  | .panic => none
  | .err e => some (t, .error e)
  | .ok cs => (t.applyChangesetM b cs).map (fun t' => (t', .ok cs))

/-- tracker.rs:197-206 `insert_tx_preview` -/
def insertTxPreviewM (b : Build) (t : Tracker K D P T) (tx : T) (pos : P) (o : Orders P T) :
    Res (CGInsertTxError P) (KeychainChangeSet K P T) :=
  match t.chainGraph.insertTxPreviewM b tx pos o with
  | .panic => .panic
  | .err e => .err e
  | .ok cs => .ok (.ofChainGraph cs)

/-- one call of a method of the tracker or of its public field `txout_index` (tracker.rs:94-104, 183-190, 215-223,
txout_index.rs) in a given build -/
def stepM (b : Build) (t : Tracker K D P T) : Op K P T → Option (Tracker K D P T × Option (KeychainChangeSet K P T))
  | .applyUpdate scan o => (t.applyOkM b (t.determineChangesetM b scan o)).map logged
  | .insertTx tx pos o => (t.applyOkM b (t.insertTxPreviewM b tx pos o)).map logged
  | .insertCheckpoint bl o => (t.applyOkM b (t.insertCheckpointPreview bl o)).map logged
  | .revealToTarget k n => t.viaIndex ((t.txoutIndex.revealToTargetM b k n).map (fun r => (r.1, r.2.2)))
  | .revealToTargetMulti m => t.viaIndex ((t.txoutIndex.revealToTargetMultiM b m).map (fun r => (r.1, r.2.2)))
  | .revealNextSpk k => t.viaIndex ((t.txoutIndex.revealNextSpkM b k).map (fun r => (r.1, r.2.2)))
  | .revealAndReserveNextSpk k => t.viaIndex ((t.txoutIndex.revealAndReserveNextSpkM b k).map (fun r => (r.1, r.2.2)))
  | .nextUnusedSpk k => t.viaIndex ((t.txoutIndex.nextUnusedSpkM b k).map (fun r => (r.1, r.2.2)))
  | .reserveNextUnusedSpk k => t.viaIndex ((t.txoutIndex.reserveNextUnusedSpkM b k).map (fun r => (r.1, r.2.2)))
  | .markUsed k i => t.viaIndex (some ((t.txoutIndex.markUsed k i).1, OMap.empty))
  | .unmarkUsed k i => t.viaIndex (some ((t.txoutIndex.unmarkUsed k i).1, OMap.empty))

/-- a sequence of calls in a given build: final state and the changesets reported -/
def runFromM (b : Build) (t : Tracker K D P T) : List (Op K P T) → Option (Tracker K D P T × List (KeychainChangeSet K P T))
  | [] => some (t, [])
  | op :: l => do
    let r ← t.stepM b op
    let r' ← runFromM b r.1 l
    return (r'.1, r.2.toList ++ r'.2)

/-- loading in a given build (file_store.rs:124-132) -/
def replayM (b : Build) (t : Tracker K D P T) (log : List (KeychainChangeSet K P T)) : Option (Tracker K D P T) :=
  log.foldlM (applyChangesetM b) t

end Tracker
end Verif
