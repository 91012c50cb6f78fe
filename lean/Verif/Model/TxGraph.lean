import Verif.Model.SparseChain

/-!
# Model of `TxGraph` (bdk_chain/src/tx_graph.rs)
-/

namespace Verif

/-- `u32` output index -/
abbrev Vout := Fin (2 ^ 32)

/-- `bitcoin::OutPoint` -/
structure OutPoint where
  txid : Txid
  vout : Vout
deriving DecidableEq, Repr

namespace OutPoint
/-- `bitcoin::OutPoint` derives `Ord`: by txid, then vout -/
instance : LinearOrder OutPoint :=
  LinearOrder.lift' (fun o => (toLex (o.txid, o.vout) : Txid ×ₗ Vout))
    (fun a b h => by
      have h' : (a.txid, a.vout) = (b.txid, b.vout) := h
      cases a; cases b; simp_all)
/-- `OutPoint::is_null`: the previous output of a coinbase input -/
def isNull (o : OutPoint) : Bool := decide (o.txid = 0) && decide (o.vout = Fin.last _)
end OutPoint

/-- script pubkeys: only equality and use as map key matter -/
abbrev Script := Nat

/-- `bitcoin::TxOut` -/
structure TxOut where
  value : Nat
  spk : Script
deriving DecidableEq, Repr

/-- The parts of `bitcoin::Transaction` the code looks at. `txid` is `Transaction::txid()`; `input` are the
`previous_output`s.  The number of outputs fits `u32` (a transaction is at most 4 MB). -/
structure Tx where
  txid : Txid
  input : List OutPoint
  output : List TxOut
  small : output.length ≤ 2 ^ 32 := by decide
deriving DecidableEq

namespace Tx
/-- `Transaction::is_coin_base` of `bitcoin` -/
def isCoinBase (t : Tx) : Bool :=
  match t.input with
  | [i] => i.isNull
  | _ => false
/-- `tx.output.iter().enumerate().map(|(vout, txout)| (OutPoint::new(txid, vout as _), txout))` -/
def txouts (t : Tx) : List (OutPoint × TxOut) :=
  t.output.zipIdx.map (fun e => (⟨t.txid, Fin.ofNat _ e.2⟩, e.1))
end Tx

/-- bdk_chain/src/tx_data_traits.rs:5-17 `trait AsTransaction`.  Two values may have the same underlying `Tx` and
still differ (e.g. in witness data, which the txid does not cover). -/
class AsTransaction (T : Type) where
  asTx : T → Tx

/-- Collision resistance of txids: the txid determines inputs and outputs (not the witness). -/
class LawfulTx (T : Type) [AsTransaction T] : Prop where
  txid_inj : ∀ a b : T, (AsTransaction.asTx a).txid = (AsTransaction.asTx b).txid →
    AsTransaction.asTx a = AsTransaction.asTx b

export AsTransaction (asTx)

/-- tx_graph.rs:89-92 `enum TxNode` -/
inductive TxNode (T : Type) where
  | whole (t : T)
  | partialOuts (outs : OMap Vout TxOut)
deriving DecidableEq

/-- tx_graph.rs:67-74 `struct TxGraph` (`empty_outspends` is an always empty set used to return a reference) -/
structure TxGraph (T : Type) where
  txs : OMap Txid (TxNode T)
  spends : OMap OutPoint (OSet Txid)
deriving DecidableEq

/-- tx_graph.rs:455-458 `struct Additions<T>` -/
structure Additions (T : Type) [LinearOrder T] where
  tx : OSet T
  txout : OMap OutPoint TxOut
deriving DecidableEq

namespace Additions
variable {T : Type} [LinearOrder T]
/-- tx_graph.rs:494-501 `Default` -/
def empty : Additions T := ⟨OMap.empty, OMap.empty⟩
/-- tx_graph.rs:462-464 `is_empty` -/
def isEmpty (a : Additions T) : Bool := OMap.isEmpty a.tx && a.txout.isEmpty
/-- tx_graph.rs:485-491 `append`.  For equal keys `BTreeSet::append` keeps one of two equal values. -/
def append (a b : Additions T) : Additions T := ⟨OMap.append a.tx b.tx, a.txout.append b.txout⟩
/-- tx_graph.rs:467-481 `txouts` -/
def txouts [AsTransaction T] (a : Additions T) : List (OutPoint × TxOut) :=
  a.tx.toList.flatMap (fun t => (asTx t).txouts) ++ a.txout.entries
end Additions

namespace TxGraph
variable {T : Type}

/-- tx_graph.rs:76-84 `Default` -/
def empty : TxGraph T := ⟨OMap.empty, OMap.empty⟩

/-- tx_graph.rs:344-346 `outspends` -/
def outspends (g : TxGraph T) (o : OutPoint) : OSet Txid := (g.spends.get o).getD OMap.empty

/-- tx_graph.rs:635-637 `tx_outpoint_range` and 358-362: entries of `spends` between `(txid, 0)` and `(txid, u32::MAX)` -/
def spendsRange (g : TxGraph T) (txid : Txid) : List (OutPoint × OSet Txid) :=
  g.spends.entries.filter (fun e => decide ((⟨txid, 0⟩ : OutPoint) ≤ e.1 ∧ e.1 ≤ ⟨txid, Fin.last _⟩))

/-- tx_graph.rs:354-366 `tx_outspends` -/
def txOutspends (g : TxGraph T) (txid : Txid) : List (Vout × OSet Txid) :=
  (g.spendsRange txid).map (fun e => (e.1.vout, e.2))

/-- tx_graph.rs:369-374 `partial_transactions` (the order is that of a `HashMap`) -/
def partialTransactions (g : TxGraph T) : List (Txid × OMap Vout TxOut) :=
  g.txs.entries.filterMap (fun e => match e.2 with | .whole _ => none | .partialOuts p => some (e.1, p))

/-- tx_graph.rs:429-431 `is_empty` -/
def isEmpty (g : TxGraph T) : Bool := g.txs.isEmpty

/-- tx_graph.rs:131-136 `get_tx` -/
def getTx (g : TxGraph T) (txid : Txid) : Option T :=
  match g.txs.get txid with
  | some (.whole t) => some t
  | some (.partialOuts _) => none
  | none => none

/-- tx_graph.rs:119-124 `full_transactions` (the order is that of a `HashMap`) -/
def fullTransactions (g : TxGraph T) : List T :=
  g.txs.entries.filterMap (fun e => match e.2 with | .whole t => some t | .partialOuts _ => none)

variable [AsTransaction T]

/-- tx_graph.rs:139-144 `get_txout` -/
def getTxout (g : TxGraph T) (o : OutPoint) : Option TxOut :=
  match g.txs.get o.txid with
  | some (.whole t) => (asTx t).output[o.vout.val]?
  | some (.partialOuts p) => p.get o.vout
  | none => none

/-- tx_graph.rs:147-161 `txouts` -/
def txouts (g : TxGraph T) (txid : Txid) : Option (OMap Vout TxOut) :=
  match g.txs.get txid with
  | some (.whole t) => some (OMap.ofList ((asTx t).output.zipIdx.map (fun e => (Fin.ofNat _ e.2, e.1))))
  | some (.partialOuts p) => some p
  | none => none

/-- tx_graph.rs:104-115: the outputs of one node of the graph -/
def nodeTxouts (e : Txid × TxNode T) : List (OutPoint × TxOut) :=
  match e.2 with
  | .whole t => (asTx t).output.zipIdx.map (fun o => (⟨e.1, Fin.ofNat _ o.2⟩, o.1))
  | .partialOuts p => p.entries.map (fun o => (⟨e.1, o.1⟩, o.2))

/-- tx_graph.rs:102-116 `all_txouts`; `ho` is the order of `txs` -/
def allTxouts (g : TxGraph T) (ho : HashOrder (Txid × TxNode T)) : List (OutPoint × TxOut) :=
  (ho.perm g.txs.entries).flatMap nodeTxouts

/-- `Iterator::sum::<Option<i64>>`: `None` as soon as an element is `None` -/
def sumOpt : List (Option Int) → Option Int
  | [] => some 0
  | none :: _ => none
  | some x :: l => (sumOpt l).map (x + ·)

/-- tx_graph.rs:171-191 `calculate_fee` (`i64` sums are exact integers here) -/
def calculateFee (g : TxGraph T) (tx : Tx) : Option Int :=
  if tx.isCoinBase then some 0
  else
    match sumOpt (tx.input.map (fun i => (g.getTxout i).map (fun o => (o.value : Int)))) with
    | none => none
    | some inputsSum => some (inputsSum - (tx.output.map (fun o => (o.value : Int))).sum)

/-- tx_graph.rs:248-250: record that `txid` spends `o` -/
def addSpend (txid : Txid) (s : OMap OutPoint (OSet Txid)) (o : OutPoint) : OMap OutPoint (OSet Txid) :=
  s.insert o (((s.get o).getD OMap.empty).add txid)

/-- tx_graph.rs:238-259, one iteration of the first loop of `apply_additions` -/
def applyTx (g : TxGraph T) (t : T) : TxGraph T :=
  let tx := asTx t
  { spends := (tx.input.filter (fun o => !o.isNull)).foldl (addSpend tx.txid) g.spends
    txs := g.txs.insert tx.txid (.whole t) }

/-- tx_graph.rs:261-273, one iteration of the second loop of `apply_additions` -/
def applyTxout (g : TxGraph T) (e : OutPoint × TxOut) : TxGraph T :=
  match (g.txs.get e.1.txid).getD (.partialOuts OMap.empty) with
  | .whole _ => g
  | .partialOuts p => { g with txs := g.txs.insert e.1.txid (.partialOuts (p.insert e.1.vout e.2)) }

variable [LinearOrder T]

/-- tx_graph.rs:237-274 `apply_additions` -/
def applyAdditions (g : TxGraph T) (a : Additions T) : TxGraph T :=
  a.txout.entries.foldl applyTxout (a.tx.toList.foldl applyTx g)

/-- tx_graph.rs:298-307: one output of a partial transaction of the update -/
def determinePartial (g : TxGraph T) (txid : Txid) (m : OMap OutPoint TxOut) (e : Vout × TxOut) :
    OMap OutPoint TxOut :=
  let o : OutPoint := ⟨txid, e.1⟩
  if g.getTxout o ≠ some e.2 then m.insert o e.2 else m

/-- tx_graph.rs:286-309, one iteration of `determine_additions` -/
def determineNode (g : TxGraph T) (a : Additions T) (e : Txid × TxNode T) : Additions T :=
  if (g.getTx e.1).isSome then a
  else
    match e.2 with
    | .whole t =>
      match g.txs.get e.1 with
      | none => { a with tx := a.tx.add t }
      | some (.partialOuts _) => { a with tx := a.tx.add t }
      | some (.whole _) => a
    | .partialOuts p => { a with txout := p.entries.foldl (determinePartial g e.1) a.txout }

/-- tx_graph.rs:280-312 `determine_additions` (`T2 = T`); `ho` is the order of `update.txs` -/
def determineAdditions (g u : TxGraph T) (ho : HashOrder (Txid × TxNode T)) : Additions T :=
  (ho.perm u.txs.entries).foldl (determineNode g) Additions.empty

/-- tx_graph.rs:227-234 `apply_update` -/
def applyUpdate (g u : TxGraph T) (ho : HashOrder (Txid × TxNode T)) : TxGraph T × Additions T :=
  let a := g.determineAdditions u ho
  (g.applyAdditions a, a)

/-- tx_graph.rs:318-322 `insert_tx_preview` (the update map has one entry, so its order is irrelevant) -/
def insertTxPreview (g : TxGraph T) (t : T) : Additions T :=
  g.determineAdditions ⟨OMap.empty.insert (asTx t).txid (.whole t), OMap.empty⟩ (HashOrder.id _)

/-- tx_graph.rs:216-220 `insert_tx` -/
def insertTx (g : TxGraph T) (t : T) : TxGraph T × Additions T :=
  let a := g.insertTxPreview t
  (g.applyAdditions a, a)

/-- tx_graph.rs:329-336 `insert_txout_preview` -/
def insertTxoutPreview (g : TxGraph T) (o : OutPoint) (txout : TxOut) : Additions T :=
  g.determineAdditions ⟨OMap.empty.insert o.txid (.partialOuts (OMap.empty.insert o.vout txout)), OMap.empty⟩
    (HashOrder.id _)

/-- tx_graph.rs:207-211 `insert_txout` -/
def insertTxout (g : TxGraph T) (o : OutPoint) (txout : TxOut) : TxGraph T × Additions T :=
  let a := g.insertTxoutPreview o txout
  (g.applyAdditions a, a)

/-- tx_graph.rs:196-202 `new` -/
def new (l : List T) : TxGraph T := l.foldl (fun g t => (g.insertTx t).1) empty

/-- Every graph a caller can build with the public methods. -/
inductive Reachable : TxGraph T → Prop where
  | empty : Reachable empty
  | insertTx {g} (t : T) : Reachable g → Reachable (g.insertTx t).1
  | insertTxout {g} (o : OutPoint) (x : TxOut) : Reachable g → Reachable (g.insertTxout o x).1
  | applyUpdate {g u} (ho : HashOrder (Txid × TxNode T)) : Reachable g → Reachable u → Reachable (g.applyUpdate u ho).1
  | applyAdditions {g} (a : Additions T) : Reachable g → Reachable (g.applyAdditions a)

end TxGraph

/-! ### `TxDescendants` -/

/-- Iteration order of each `HashSet` of spenders in the graph. -/
abbrev SpendOrder := OutPoint → HashOrder Txid

/-- tx_graph.rs:526-531 `struct TxDescendants` with the state `σ` of the `FnMut` closure, and the log of the calls
made to it (ghost: `(depth, txid, result)`, oldest last).  The head of `stack` is the top. -/
structure Walk (σ O : Type) where
  visited : OSet Txid
  stack : List (Nat × Txid)
  state : σ
  calls : List (Nat × Txid × Option O)

namespace TxGraph
variable {T : Type} {σ O : Type}

/-- tx_graph.rs:597-605 `populate_stack`: what is pushed, in push order -/
def children (g : TxGraph T) (so : SpendOrder) (txid : Txid) : List Txid :=
  (g.spendsRange txid).flatMap (fun e => (so e.1).perm e.2.toList)

/-- tx_graph.rs:597-605 `populate_stack` on the stack alone -/
def populateStack (g : TxGraph T) (so : SpendOrder) (depth : Nat) (txid : Txid) (stack : List (Nat × Txid)) :
    List (Nat × Txid) :=
  ((g.children so txid).map (fun c => (depth, c))).reverse ++ stack

/-- tx_graph.rs:622-629: the stack after the closure answered `r` for `t` at depth `d` -/
def stackAfter (g : TxGraph T) (so : SpendOrder) (d : Nat) (t : Txid) (rest : List (Nat × Txid)) (r : Option O) :
    List (Nat × Txid) :=
  match r with
  | some _ => g.populateStack so (d + 1) t rest
  | none => rest

/-- tx_graph.rs:616-629: one iteration of the `loop` of `next`, plus the `populate_stack` that follows an accepted
item.  `none` when the stack is empty. -/
def walkStep (g : TxGraph T) (so : SpendOrder) (f : σ → Nat → Txid → σ × Option O) (w : Walk σ O) :
    Option (Walk σ O) :=
  match w.stack with
  | [] => none
  | (d, t) :: rest =>
    if w.visited.mem t then some { w with stack := rest }
    else
      let r := f w.state d t
      some { visited := w.visited.add t, stack := g.stackAfter so d t rest r.2, state := r.1, calls := (d, t, r.2) :: w.calls }

/-- run the iterator for at most `n` loop iterations -/
def walkN (g : TxGraph T) (so : SpendOrder) (f : σ → Nat → Txid → σ × Option O) : Nat → Walk σ O → Walk σ O
  | 0, w => w
  | n + 1, w => match g.walkStep so f w with
    | none => w
    | some w' => walkN g so f n w'

/-- an upper bound on the number of loop iterations: the stack plus all recorded spends.
That this suffices is proved (`C22_walk_terminates`). -/
def walkFuel (g : TxGraph T) (w : Walk σ O) : Nat :=
  w.stack.length + (g.spends.entries.map (fun e => e.2.size)).sum

/-- run the iterator until it returns `None` -/
def walkAll (g : TxGraph T) (so : SpendOrder) (f : σ → Nat → Txid → σ × Option O) (w : Walk σ O) : Walk σ O :=
  g.walkN so f (g.walkFuel w) w

/-- the items an exhausted iterator has yielded, in order -/
def _root_.Verif.Walk.items (w : Walk σ O) : List O := w.calls.reverse.filterMap (fun c => c.2.2)

/-- tx_graph.rs:546-557 `new_exclude_root` and 386-391 `walk_descendants` -/
def walkDescendants (g : TxGraph T) (so : SpendOrder) (txid : Txid) (s : σ) : Walk σ O :=
  { visited := OMap.empty, stack := g.populateStack so 1 txid [], state := s, calls := [] }

/-- tx_graph.rs:561-575 `from_multiple_include_root` -/
def walkFrom (txids : List Txid) (s : σ) : Walk σ O :=
  { visited := OMap.empty, stack := (txids.map (fun t => (0, t))).reverse, state := s, calls := [] }

/-- tx_graph.rs:415-426 `direct_conflicts_of_tx` -/
def directConflictsOfTx (g : TxGraph T) (so : SpendOrder) (tx : Tx) : List (Nat × Txid) :=
  ((tx.input.zipIdx.filterMap (fun e => (g.spends.get e.1).map (fun s => (e.2, e.1, s)))).flatMap
    (fun e => ((so e.2.1).perm e.2.2.toList).map (fun t => (e.1, t)))).filter (fun e => decide (e.2 ≠ tx.txid))

/-- tx_graph.rs:397-407 `walk_conflicts` -/
def walkConflicts (g : TxGraph T) (so : SpendOrder) (tx : Tx) (s : σ) : Walk σ O :=
  walkFrom ((g.directConflictsOfTx so tx).map Prod.snd) s

end TxGraph
end Verif
