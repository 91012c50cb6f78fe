import Verif.Model.TxGraph

/-!
# Model of `ChainGraph` (bdk_chain/src/chain_graph.rs) and of `FullTxOut` (bdk_chain/src/chain_data.rs)
-/

namespace Verif

/-- chain_data.rs:166-177 `struct FullTxOut<I>` -/
structure FullTxOut (P : Type) where
  outpoint : OutPoint
  txout : TxOut
  chainPosition : P
  spentBy : Option (P × Txid)
  isOnCoinbase : Bool
deriving DecidableEq

/-- chain_graph.rs:28-31 `struct ChainGraph` -/
structure ChainGraph (P T : Type) [LinearOrder P] where
  chain : SparseChain P
  graph : TxGraph T
deriving DecidableEq

/-- chain_graph.rs:446-449 `struct ChangeSet` -/
structure CGChangeSet (P T : Type) [LinearOrder P] [LinearOrder T] where
  chain : ChangeSet P
  graph : Additions T
deriving DecidableEq

/-- chain_graph.rs:594-597 `struct UnresolvableConflict` -/
structure UnresolvableConflict (P : Type) where
  alreadyConfirmedTx : P × Txid
  updateTx : P × Txid
deriving DecidableEq

/-- chain_graph.rs:499-504 `enum NewError` (the `HashSet` of missing txids as a set) -/
inductive NewError (P : Type) where
  | conflict (a b : P × Txid)
  | missing (m : OSet Txid)
deriving DecidableEq

/-- chain_graph.rs:533-536 `enum InsertTxError` -/
inductive CGInsertTxError (P : Type) where
  | chain (e : InsertTxError P)
  | unresolvableConflict (e : UnresolvableConflict P)
deriving DecidableEq

/-- chain_graph.rs:563-568 `enum UpdateError` -/
inductive CGUpdateError (P : Type) where
  | chain (e : UpdateError P)
  | unresolvableConflict (e : UnresolvableConflict P)
deriving DecidableEq

/-- the iteration orders of the hash containers met during one call -/
structure Orders (P T : Type) where
  chain : HashOrder (Txid × P)
  graph : HashOrder (Txid × TxNode T)
  spend : SpendOrder

/-- every container iterated in stored order -/
def Orders.id (P T : Type) : Orders P T := ⟨HashOrder.id _, HashOrder.id _, fun _ => HashOrder.id _⟩

namespace CGChangeSet
variable {P T : Type} [LinearOrder P] [LinearOrder T]
/-- chain_graph.rs:477-484 `Default` -/
def empty : CGChangeSet P T := ⟨ChangeSet.empty, Additions.empty⟩
/-- chain_graph.rs:453-455 `is_empty` -/
def isEmpty (c : CGChangeSet P T) : Bool := c.chain.isEmpty && c.graph.isEmpty
/-- chain_graph.rs:458-463 `contains_eviction` -/
def containsEviction (c : CGChangeSet P T) : Bool := c.chain.txids.entries.any (fun e => e.2.isNone)
/-- chain_graph.rs:467-474 `append` -/
def append (a b : CGChangeSet P T) : CGChangeSet P T := ⟨a.chain.append b.chain, a.graph.append b.graph⟩
end CGChangeSet

namespace SparseChain
variable {P : Type} [LinearOrder P]

/-- sparse_chain.rs:881-886 `spent_by` -/
def spentBy {T : Type} (c : SparseChain P) (g : TxGraph T) (so : SpendOrder) (o : OutPoint) : Option (P × Txid) :=
  ((so o).perm (g.outspends o).toList).findSome? (fun t => (c.txPosition t).map (fun p => (p, t)))

/-- sparse_chain.rs:804-826 `full_txout` -/
def fullTxout {T : Type} [AsTransaction T] (c : SparseChain P) (g : TxGraph T) (so : SpendOrder) (o : OutPoint) :
    Option (FullTxOut P) := do
  let chainPos ← c.txPosition o.txid
  let tx ← g.getTx o.txid
  let txout ← (asTx tx).output[o.vout.val]?
  some ⟨o, txout, chainPos, c.spentBy g so o, (asTx tx).isCoinBase⟩

/-- every `SparseChain` a caller can build with the public methods -/
def Reachable [ChainPosition P] (c : SparseChain P) : Prop := ∃ l ops, c = (fromCheckpoints l).run ops

/-- the closure `|_, txid| Some((chain.tx_position(txid)?, txid))` given to `walk_conflicts`
(chain_graph.rs:91-93 and 297-301) -/
def inChainFilter (c : SparseChain P) : Unit → Nat → Txid → Unit × Option (P × Txid) :=
  fun _ _ t => ((), (c.txPosition t).map (fun p => (p, t)))
end SparseChain

namespace ChainGraph
variable {P T : Type} [LinearOrder P]

/-- chain_graph.rs:33-40 `Default` -/
def empty : ChainGraph P T := ⟨SparseChain.empty, TxGraph.empty⟩

/-- the items of `graph.walk_conflicts(tx, |_, txid| Some((chain.tx_position(txid)?, txid)))`
(chain_graph.rs:89-95; `tx_conflicts_in_chain` 293-302) -/
def conflictsIn (c : SparseChain P) (g : TxGraph T) (so : SpendOrder) (tx : Tx) : List (P × Txid) :=
  (g.walkAll so c.inChainFilter (g.walkConflicts so tx ())).items

/-- chain_graph.rs:293-302 `tx_conflicts_in_chain` -/
def txConflictsInChain (cg : ChainGraph P T) (so : SpendOrder) (tx : Tx) : List (P × Txid) :=
  conflictsIn cg.chain cg.graph so tx

/-- chain_graph.rs:188-192 `get_tx_in_chain`; the outer `none` is the panic of `expect("must exist")` -/
def getTxInChain (cg : ChainGraph P T) (t : Txid) : Option (Option (P × T)) :=
  match cg.chain.txPosition t with
  | none => some none
  | some p =>
    match cg.graph.getTx t with
    | some x => some (some (p, x))
    | none => none

/-- chain_graph.rs:411-415 `transactions_in_chain`; an element `none` is the panic of `expect("must exist")` -/
def transactionsInChain (cg : ChainGraph P T) : List (Option (P × T)) :=
  cg.chain.txids.map (fun e => (cg.graph.getTx e.2).map (fun x => (e.1, x)))

/-- chain_graph.rs:420-422 `spent_by` -/
def spentBy (cg : ChainGraph P T) (so : SpendOrder) (o : OutPoint) : Option (P × Txid) :=
  cg.chain.spentBy cg.graph so o

/-- chain_graph.rs:425-427 `is_empty` -/
def isEmpty [ChainPosition P] (cg : ChainGraph P T) : Bool := cg.chain.isEmpty && cg.graph.isEmpty

variable [AsTransaction T]

/-- chain_graph.rs:405-407 `full_txout` -/
def fullTxout (cg : ChainGraph P T) (so : SpendOrder) (o : OutPoint) : Option (FullTxOut P) :=
  cg.chain.fullTxout cg.graph so o

/-- chain_graph.rs:86-104: the loop of `new` -/
def newLoop (c : SparseChain P) (g : TxGraph T) (so : SpendOrder) :
    List (P × Txid) → OSet Txid → Except (NewError P) (OSet Txid)
  | [], missing => .ok missing
  | (pos, txid) :: l, missing =>
    match g.getTx txid with
    | some tx =>
      match (conflictsIn c g so (asTx tx)).head? with
      | some conflict => .error (.conflict (pos, txid) conflict)
      | none => newLoop c g so l missing
    | none => newLoop c g so l (missing.add txid)

/-- chain_graph.rs:85-110 `new` -/
def new (c : SparseChain P) (g : TxGraph T) (so : SpendOrder) : Except (NewError P) (ChainGraph P T) :=
  match newLoop c g so c.txids OMap.empty with
  | .error e => .error e
  | .ok missing => if OMap.isEmpty missing then .ok ⟨c, g⟩ else .error (.missing missing)

variable [LinearOrder T]

/-- chain_graph.rs:133-142: the graph built by `inflate_update` -/
def inflatedGraph (cg : ChainGraph P T) (update : SparseChain P) (newTxs : List T) : TxGraph T :=
  newTxs.foldl (fun g t => (g.insertTx t).1)
    ((update.txids.filterMap (fun e => cg.graph.getTx e.2)).foldl (fun g t => (g.insertTx t).1) TxGraph.empty)

/-- chain_graph.rs:128-145 `inflate_update` (`Cow<T>` is `T`) -/
def inflateUpdate (cg : ChainGraph P T) (update : SparseChain P) (newTxs : List T) (so : SpendOrder) :
    Except (NewError P) (ChainGraph P T) :=
  new update (cg.inflatedGraph update newTxs) so

variable [ChainPosition P]

/-- chain_graph.rs:388-391 `apply_changeset` -/
def applyChangeset (cg : ChainGraph P T) (cs : CGChangeSet P T) : ChainGraph P T :=
  ⟨cg.chain.applyChangeset cs.chain, cg.graph.applyAdditions cs.graph⟩

/-- chain_graph.rs:155-157 `set_checkpoint_limit` -/
def setCheckpointLimit (cg : ChainGraph P T) (l : Option Nat) : ChainGraph P T :=
  { cg with chain := cg.chain.setCheckpointLimit l }

/-- chain_graph.rs:161-166 `invalidate_checkpoints_preview` -/
def invalidateCheckpointsPreview (cg : ChainGraph P T) (h : Nat) : CGChangeSet P T :=
  ⟨cg.chain.invalidateCheckpointsPreview h, Additions.empty⟩

/-- chain_graph.rs:173-180 `invalidate_checkpoints` -/
def invalidateCheckpoints (cg : ChainGraph P T) (h : Nat) : ChainGraph P T × CGChangeSet P T :=
  let cs := cg.invalidateCheckpointsPreview h
  (cg.applyChangeset cs, cs)

/-- chain_graph.rs:312-322: txids the changeset newly adds, with their position -/
def newTxids (cg : ChainGraph P T) (cs : CGChangeSet P T) : List (Txid × P) :=
  (cs.chain.txids.entries.filterMap (fun e => e.2.map (fun pos => (e.1, pos)))).filter
    (fun e => (cg.chain.txPosition e.1).isNone)

/-- chain_graph.rs:325-335: the full transaction, in the graph or in the additions -/
def fullTxOf (cg : ChainGraph P T) (cs : CGChangeSet P T) (t : Txid) : Option T :=
  (cg.graph.getTx t).or (cs.graph.tx.toList.find? (fun x => decide ((asTx x).txid = t)))

/-- chain_graph.rs:339-345: the conflicts in the chain of one newly added transaction -/
def conflictsOfNew (cg : ChainGraph P T) (so : SpendOrder) (e : Txid × P) (x : T) : List ((P × Txid) × (P × Txid)) :=
  (cg.txConflictsInChain so (asTx x)).map (fun c => ((e.2, e.1), c))

/-- chain_graph.rs:312-347 `chain_conflicts`: pairs (update tx, conflicting chain tx).
`none` is the failing `debug_assert!` of line 336. -/
def chainConflicts (cg : ChainGraph P T) (cs : CGChangeSet P T) (so : SpendOrder) :
    List (Txid × P) → Option (List ((P × Txid) × (P × Txid)))
  | [] => some []
  | e :: l =>
    match cg.fullTxOf cs e.1 with
    | none => none
    | some x => (chainConflicts cg cs so l).map (fun r => cg.conflictsOfNew so e x ++ r)

/-- chain_graph.rs:355-360: the position of the conflicting tx after the changeset is applied -/
def conflictingNewPos (txids : OMap Txid (Option P)) (c : P × Txid) : Option P :=
  (txids.get c.2).getD (some c.1)

/-- chain_graph.rs:349-379: the resolution loop over the conflicts -/
def resolve : List ((P × Txid) × (P × Txid)) → OMap Txid (Option P) →
    Except (UnresolvableConflict P) (OMap Txid (Option P))
  | [], txids => .ok txids
  | (update, c) :: l, txids =>
    match conflictingNewPos txids c with
    | none => resolve l txids
    | some p =>
      match ChainPosition.height p with
      | .confirmed _ => .error ⟨c, update⟩
      | .unconfirmed => resolve l (txids.insert c.2 none)

/-- chain_graph.rs:308-382 `fix_conflicts` -/
def fixConflicts (cg : ChainGraph P T) (cs : CGChangeSet P T) (so : SpendOrder) :
    Res (UnresolvableConflict P) (CGChangeSet P T) :=
  match cg.chainConflicts cs so (cg.newTxids cs) with
  | none => .panic
  | some l =>
    match resolve l cs.chain.txids with
    | .error e => .err e
    | .ok txids => .ok { cs with chain := { cs.chain with txids := txids } }

/-- chain_graph.rs:199-206 `insert_tx_preview` -/
def insertTxPreview (cg : ChainGraph P T) (t : T) (pos : P) (o : Orders P T) :
    Res (CGInsertTxError P) (CGChangeSet P T) :=
  match cg.chain.insertTxPreview (asTx t).txid pos o.chain with
  | .panic => .panic
  | .err e => .err (.chain e)
  | .ok cs =>
    match cg.fixConflicts ⟨cs, cg.graph.insertTxPreview t⟩ o.spend with
    | .panic => .panic
    | .err e => .err (.unresolvableConflict e)
    | .ok r => .ok r

/-- a call that, on success, applies the changeset it computed, and otherwise leaves the state alone -/
def applyOk {ε : Type} (cg : ChainGraph P T) (r : Res ε (CGChangeSet P T)) : ChainGraph P T × Res ε (CGChangeSet P T) :=
  match r with
  | .ok cs => (cg.applyChangeset cs, .ok cs)
  | r => (cg, r)

/-- chain_graph.rs:212-216 `insert_tx` -/
def insertTx (cg : ChainGraph P T) (t : T) (pos : P) (o : Orders P T) :
    ChainGraph P T × Res (CGInsertTxError P) (CGChangeSet P T) :=
  cg.applyOk (cg.insertTxPreview t pos o)

/-- chain_graph.rs:219-224 `insert_txout_preview` -/
def insertTxoutPreview (cg : ChainGraph P T) (op : OutPoint) (x : TxOut) : CGChangeSet P T :=
  ⟨ChangeSet.empty, cg.graph.insertTxoutPreview op x⟩

/-- chain_graph.rs:230-234 `insert_txout` -/
def insertTxout (cg : ChainGraph P T) (op : OutPoint) (x : TxOut) : ChainGraph P T × CGChangeSet P T :=
  let cs := cg.insertTxoutPreview op x
  (cg.applyChangeset cs, cs)

/-- chain_graph.rs:241-251 `insert_checkpoint_preview` -/
def insertCheckpointPreview (cg : ChainGraph P T) (b : BlockId) (o : Orders P T) :
    Res InsertCheckpointError (CGChangeSet P T) :=
  match cg.chain.insertCheckpointPreview b o.chain with
  | .panic => .panic
  | .err e => .err e
  | .ok cs => .ok ⟨cs, Additions.empty⟩

/-- chain_graph.rs:257-264 `insert_checkpoint` -/
def insertCheckpoint (cg : ChainGraph P T) (b : BlockId) (o : Orders P T) :
    ChainGraph P T × Res InsertCheckpointError (CGChangeSet P T) :=
  cg.applyOk (cg.insertCheckpointPreview b o)

/-- chain_graph.rs:267-286 `determine_changeset` (`T2 = T`) -/
def determineChangeset (cg u : ChainGraph P T) (o : Orders P T) : Res (CGUpdateError P) (CGChangeSet P T) :=
  match cg.chain.determineChangeset u.chain o.chain with
  | .error e => .err (.chain e)
  | .ok cs =>
    match cg.fixConflicts ⟨cs, cg.graph.determineAdditions u.graph o.graph⟩ o.spend with
    | .panic => .panic
    | .err e => .err (.unresolvableConflict e)
    | .ok r => .ok r

/-- chain_graph.rs:395-402 `apply_update` -/
def applyUpdate (cg u : ChainGraph P T) (o : Orders P T) : ChainGraph P T × Res (CGUpdateError P) (CGChangeSet P T) :=
  cg.applyOk (cg.determineChangeset u o)

/-- Every chain graph a caller can build with the public methods, changesets being applied only to the state they
were computed for (the documentation of `apply_changeset`, chain_graph.rs:386-387, warns about anything else).
Updates are themselves such chain graphs. -/
inductive Reachable : ChainGraph P T → Prop where
  | empty : Reachable empty
  | new {c g cg} (so : SpendOrder) : c.Reachable → g.Reachable → new c g so = .ok cg → Reachable cg
  | insertTx {cg} (t : T) (pos : P) (o : Orders P T) : Reachable cg → Reachable (cg.insertTx t pos o).1
  | insertTxout {cg} (op : OutPoint) (x : TxOut) : Reachable cg → Reachable (cg.insertTxout op x).1
  | insertCheckpoint {cg} (b : BlockId) (o : Orders P T) : Reachable cg → Reachable (cg.insertCheckpoint b o).1
  | invalidateCheckpoints {cg} (h : Nat) : Reachable cg → Reachable (cg.invalidateCheckpoints h).1
  | setCheckpointLimit {cg} (l : Option Nat) : Reachable cg → Reachable (cg.setCheckpointLimit l)
  | applyUpdate {cg u} (o : Orders P T) : Reachable cg → Reachable u → Reachable (cg.applyUpdate u o).1

/-- One call of a public mutating method that reports a changeset. -/
inductive Op (P T : Type) [LinearOrder P] where
  | insertTx (t : T) (pos : P) (o : Orders P T)
  | insertTxout (op : OutPoint) (x : TxOut)
  | insertCheckpoint (b : BlockId) (o : Orders P T)
  | invalidateCheckpoints (h : Nat)
  | applyUpdate (u : ChainGraph P T) (o : Orders P T)

/-- the changeset of a result, empty on failure -/
def logOf {ε : Type} : Res ε (CGChangeSet P T) → CGChangeSet P T
  | .ok cs => cs
  | _ => CGChangeSet.empty

/-- state after the call and the changeset it reports (empty on failure) -/
def step (cg : ChainGraph P T) : Op P T → ChainGraph P T × CGChangeSet P T
  | .insertTx t pos o => ((cg.insertTx t pos o).1, logOf (cg.insertTx t pos o).2)
  | .insertTxout op x => cg.insertTxout op x
  | .insertCheckpoint b o => ((cg.insertCheckpoint b o).1, logOf (cg.insertCheckpoint b o).2)
  | .invalidateCheckpoints h => cg.invalidateCheckpoints h
  | .applyUpdate u o => ((cg.applyUpdate u o).1, logOf (cg.applyUpdate u o).2)

/-- a history of calls -/
def run (cg : ChainGraph P T) (ops : List (Op P T)) : ChainGraph P T := ops.foldl (fun s op => (s.step op).1) cg

/-- the changesets reported along a history -/
def runLog (cg : ChainGraph P T) : List (Op P T) → List (CGChangeSet P T)
  | [] => []
  | op :: ops => (cg.step op).2 :: runLog (cg.step op).1 ops

end ChainGraph
end Verif
