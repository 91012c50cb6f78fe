import Verif.Tests.Common

/-!
# The unit tests of the repository, run on the model: bdk_chain/tests/test_chain_graph.rs

These are not proofs of properties, but a check that the model behaves as the authors of the code say that the code does: each
example is one of their tests, transcribed.
-/

namespace Verif.Tests.ChainGraph
open Verif Verif.Tests TxHeight

variable {n : Nat} {tbl : Fin n → Tx}

abbrev CG (tbl : Fin n → Tx) := Verif.ChainGraph TxHeight (TT tbl)

/-- `insert_checkpoint(..).expect(..)` of each block and then `insert_tx(..).expect(..)` of each transaction; `none`: a call failed -/
def build (cps : List (Nat × Nat)) (txs : List (Fin n × TxHeight)) (start : CG tbl := ChainGraph.empty) : Option (CG tbl) := do
  let c ← cps.foldlM (fun c b => match c.insertCheckpoint ⟨b.1, b.2⟩ (Orders.id _ _) with
    | (c', .ok _) => some c'
    | _ => none) start
  txs.foldlM (fun c t => match c.insertTx ⟨t.1⟩ t.2 (Orders.id _ _) with
    | (c', .ok _) => some c'
    | _ => none) c

/-- a changeset -/
def cset (cps : List (Nat × Option Nat)) (txids : List (Txid × Option TxHeight)) (txs : List (Fin n)) : CGChangeSet TxHeight (TT tbl) :=
  ⟨⟨OMap.ofList cps, OMap.ofList txids⟩, ⟨OMap.ofList (txs.map fun i => (⟨i⟩, ())), OMap.empty⟩⟩

/-- `a.determine_changeset(&b)` -/
def determine (a b : Option (CG tbl)) : Option (Res (CGUpdateError TxHeight) (CGChangeSet TxHeight (TT tbl))) := do
  return (← a).determineChangeset (← b) (Orders.id _ _)

def spent : Fin 3 → Tx
  | 0 => ⟨5, [], [dflt], by decide⟩
  | 1 => ⟨6, [⟨5, 0⟩], [], by decide⟩
  | 2 => ⟨7, [⟨5, 0⟩], [], by decide⟩

/-- `test_spent_by` -/
example : (do
    let a ← build (tbl := spent) [] [(0, unconfirmed), (1, unconfirmed)]
    let b ← build (tbl := spent) [] [(0, unconfirmed), (2, unconfirmed)]
    return (a.spentBy so ⟨5, 0⟩, b.spentBy so ⟨5, 0⟩)) = some (some (unconfirmed, 6), some (unconfirmed, 7)) := by decide +kernel

/-- `tx_a`, `tx_b`, `tx_b2` -/
def evict : Fin 3 → Tx
  | 0 => ⟨30, [], [dflt], by decide⟩
  | 1 => ⟨20, [⟨30, 0⟩], [dflt], by decide⟩
  | 2 => ⟨10, [⟨30, 0⟩], [dflt, dflt], by decide⟩

abbrev A := 1
abbrev B := 2
abbrev B' := 3

/-- `update_evicts_conflicting_tx`: evicted from the mempool -/
example : determine (build (tbl := evict) [(0, A)] [(0, confirmed 0), (1, unconfirmed)]) (build [] [(2, unconfirmed)]) =
    some (.ok (cset [] [(20, none), (10, some unconfirmed)] [2])) := by decide +kernel
/-- `update_evicts_conflicting_tx`: not evicted from a valid block -/
example : determine (build (tbl := evict) [(0, A), (1, B)] [(0, confirmed 0), (1, confirmed 1)]) (build [] [(2, unconfirmed)]) =
    some (.err (.unresolvableConflict ⟨(confirmed 1, 20), (unconfirmed, 10)⟩)) := by decide +kernel
/-- `update_evicts_conflicting_tx`: evicted from an invalidated block -/
example : determine (build (tbl := evict) [(0, A), (1, B)] [(0, confirmed 0), (1, confirmed 1)]) (build [(0, A), (1, B')] [(2, unconfirmed)]) =
    some (.ok (cset [(1, some B')] [(20, none), (10, some unconfirmed)] [2])) := by decide +kernel

/-- common/mod.rs:9-25 `chain!` -/
def chain (cps : List (Nat × Nat)) (txids : List (Txid × TxHeight)) : Option (Verif.SparseChain TxHeight) :=
  txids.foldlM (fun c t => match c.insertTx t.1 t.2 ho with
    | (c', .ok _) => some c'
    | _ => none) (SparseChain.fromCheckpoints (cps.map fun c => ⟨c.1, c.2⟩))

def two : Fin 2 → Tx
  | 0 => ⟨5, [], [dflt], by decide⟩
  | 1 => ⟨4, [], [dflt], by decide⟩

/-- `chain_graph_new_missing` -/
example : (do
    let u ← chain [(0, A)] [(5, confirmed 0), (4, confirmed 0)]
    let g0 : Verif.TxGraph (TT two) := TxGraph.empty
    let g1 := (g0.insertTx ⟨1⟩).1
    let g2 := (g1.insertTxout ⟨5, 0⟩ dflt).1
    let g3 := (g2.insertTx ⟨0⟩).1
    return [g0, g1, g2, g3].map (fun g => ChainGraph.new u g so)) =
    (build (tbl := two) [(0, A)] [(0, confirmed 0), (1, confirmed 0)]).map (fun x =>
      [.error (.missing (OMap.ofList [(5, ()), (4, ())])), .error (.missing (OMap.ofList [(5, ())])), .error (.missing (OMap.ofList [(5, ())])), .ok x]) := by
  decide +kernel
example : (build (tbl := two) [(0, A)] [(0, confirmed 0), (1, confirmed 0)]).isSome := by decide +kernel

/-- `chain_graph_new_conflicts` -/
example : (do
    let c ← chain [(5, A)] [(30, confirmed 1), (20, confirmed 2), (10, confirmed 3)]
    let g : Verif.TxGraph (TT evict) := TxGraph.new [⟨0⟩, ⟨1⟩, ⟨2⟩]
    match ChainGraph.new c g so with
    | .error (.conflict _ _) => some ()
    | _ => none).isSome := by decide +kernel

/-- `test_get_tx_in_chain` -/
example : (build (tbl := two) [] [(0, unconfirmed)]).map (fun c => c.getTxInChain 5) = some (some (some (unconfirmed, ⟨0⟩))) := by decide +kernel

def three : Fin 3 → Tx
  | 0 => ⟨5, [], [dflt], by decide⟩
  | 1 => ⟨4, [], [dflt], by decide⟩
  | 2 => ⟨7, [], [dflt], by decide⟩

/-- `test_iterate_transactions` -/
example : (build (tbl := three) [(1, A)] [(0, confirmed 1), (1, unconfirmed), (2, confirmed 0)]).map (fun c => c.transactionsInChain) =
    some [some (confirmed 0, ⟨2⟩), some (confirmed 1, ⟨0⟩), some (unconfirmed, ⟨1⟩)] := by decide +kernel

/-- `tx1`, `tx2a`, `tx2b` -/
def again : Fin 3 → Tx
  | 0 => ⟨5, [], [⟨1, 0⟩], by decide⟩
  | 1 => ⟨4, [⟨5, 0⟩], [⟨0, 0⟩], by decide⟩
  | 2 => ⟨7, [⟨5, 0⟩], [⟨0, 0⟩], by decide⟩

/-- `test_apply_changes_reintroduce_tx` -/
example : (do
    let c0 ← build (tbl := again) [(1, 1), (2, 20)] [(0, confirmed 1), (1, confirmed 2)]
    let u1 ← build (tbl := again) [(1, 1), (2, 21)] [(2, confirmed 2)]
    let r1 := c0.applyUpdate u1 (Orders.id _ _)
    let u2 ← build (tbl := again) [(1, 1), (2, 22)] [(1, confirmed 2)]
    let r2 := r1.1.applyUpdate u2 (Orders.id _ _)
    return (r1.2, r2.2)) =
    some (.ok (cset [(2, some 21)] [(4, none), (7, some (confirmed 2))] [2]), .ok (cset [(2, some 22)] [(7, none), (4, some (confirmed 2))] [])) := by
  decide +kernel

/-- `tx_1` … `tx_5`, `tx_conflict` -/
def desc : Fin 6 → Tx
  | 0 => ⟨16, [⟨99, 0⟩], [⟨10000, 0⟩], by decide⟩
  | 1 => ⟨15, [⟨16, 0⟩], [⟨20000, 0⟩, ⟨30000, 0⟩], by decide⟩
  | 2 => ⟨14, [⟨15, 0⟩], [⟨40000, 0⟩], by decide⟩
  | 3 => ⟨13, [⟨15, 1⟩], [⟨40000, 0⟩], by decide⟩
  | 4 => ⟨17, [⟨13, 0⟩], [⟨40000, 0⟩], by decide⟩
  | 5 => ⟨11, [⟨16, 0⟩], [⟨12345, 0⟩], by decide⟩

def descCg : Option (CG desc) := build [(1, 1), (2, 20)] [(0, confirmed 1), (1, confirmed 2), (2, confirmed 2), (3, confirmed 2), (4, confirmed 2)]

/-- `test_evict_descendants` -/
example : determine descCg (build [(1, 1), (2, 21)] [(5, confirmed 2)]) =
    some (.ok (cset [(2, some 21)] [(15, none), (14, none), (13, none), (17, none), (11, some (confirmed 2))] [5])) := by decide +kernel
example : (do
    let c ← descCg
    match c.insertTxPreview ⟨5⟩ unconfirmed (Orders.id _ _) with
    | .err (.unresolvableConflict _) => some ()
    | _ => none).isSome := by decide +kernel

end Verif.Tests.ChainGraph
