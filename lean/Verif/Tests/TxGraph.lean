import Verif.Tests.Common

/-!
# The unit tests of the repository, run on the model: bdk_chain/tests/test_tx_graph.rs

These are not proofs of properties, but a check that the model behaves as the authors of the code say that the code does: each
example is one of their tests, transcribed.
-/

namespace Verif.Tests.TxGraph
open Verif Verif.Tests

/-- `insert_txouts` -/
example :
    (let tx1 : Txid := 1
    let tx2 : Txid := 2
    let g0 : Verif.TxGraph (TT fun _ : Fin 1 => ⟨0, [], [], by decide⟩) := TxGraph.empty
    let r1 := g0.insertTxout ⟨tx1, 1⟩ ⟨10000, 0⟩
    let r2 := r1.1.insertTxout ⟨tx1, 2⟩ ⟨20000, 0⟩
    let u := g0.insertTxout ⟨tx2, 0⟩ ⟨20000, 0⟩
    let a := r2.1.determineAdditions u.1 ho
    let g := r2.1.applyAdditions a
    r1.2 = ⟨OMap.empty, OMap.ofList [(⟨tx1, 1⟩, ⟨10000, 0⟩)]⟩ ∧ r2.2 = ⟨OMap.empty, OMap.ofList [(⟨tx1, 2⟩, ⟨20000, 0⟩)]⟩ ∧
    u.2 = ⟨OMap.empty, OMap.ofList [(⟨tx2, 0⟩, ⟨20000, 0⟩)]⟩ ∧ a = ⟨OMap.empty, OMap.ofList [(⟨tx2, 0⟩, ⟨20000, 0⟩)]⟩ ∧
    (g.allTxouts ho).length = 3 ∧ g.fullTransactions.length = 0 ∧ g.partialTransactions.length = 2) := by decide +kernel

def coinbase : Fin 1 → Tx := fun _ => ⟨9, [nullOut], [], by decide⟩

/-- `insert_tx_graph_doesnt_count_coinbase_as_spent` -/
example :
    (let g := ((TxGraph.empty : Verif.TxGraph (TT coinbase)).insertTx ⟨0⟩).1
    g.outspends nullOut = OMap.empty ∧ g.txOutspends 0 = []) := by decide +kernel

def spend : Fin 2 → Tx
  | 0 => ⟨5, [], [dflt], by decide⟩
  | 1 => ⟨6, [⟨5, 0⟩], [], by decide⟩

/-- `insert_tx_graph_keeps_track_of_spend` -/
example :
    (let g1 := (((TxGraph.empty : Verif.TxGraph (TT spend)).insertTx ⟨0⟩).1.insertTx ⟨1⟩).1
    let g2 := (((TxGraph.empty : Verif.TxGraph (TT spend)).insertTx ⟨1⟩).1.insertTx ⟨0⟩).1
    (g1.outspends ⟨5, 0⟩).toList = [6] ∧ g2.outspends ⟨5, 0⟩ = g1.outspends ⟨5, 0⟩) := by decide +kernel

def coinbase1 : Fin 1 → Tx := fun _ => ⟨9, [nullOut], [dflt], by decide⟩

/-- `insert_tx_can_retrieve_full_tx_from_graph` -/
example : (((TxGraph.empty : Verif.TxGraph (TT coinbase1)).insertTx ⟨0⟩).1).getTx 9 = some ⟨0⟩ := by decide +kernel

def one : Fin 1 → Tx := fun _ => ⟨9, [], [⟨42000, 0⟩], by decide⟩

/-- `insert_tx_displaces_txouts` -/
example :
    (let g := ((((TxGraph.empty : Verif.TxGraph (TT one)).insertTxout ⟨9, 0⟩ ⟨1337000, 0⟩).1.insertTxout ⟨9, 0⟩ ⟨1000000000, 0⟩).1.insertTx ⟨0⟩).1
    (g.getTxout ⟨9, 0⟩).map TxOut.value = some 42000 ∧ g.getTxout ⟨9, 1⟩ = none) := by decide +kernel

/-- `insert_txout_does_not_displace_tx` -/
example :
    (let g := ((((TxGraph.empty : Verif.TxGraph (TT one)).insertTx ⟨0⟩).1.insertTxout ⟨9, 0⟩ ⟨1337000, 0⟩).1.insertTxout ⟨9, 0⟩ ⟨1000000000, 0⟩).1
    (g.getTxout ⟨9, 0⟩).map TxOut.value = some 42000 ∧ g.getTxout ⟨9, 1⟩ = none) := by decide +kernel

def fee : Fin 2 → Tx
  | 0 => ⟨1, [], [⟨100, 0⟩], by decide⟩
  | 1 => ⟨2, [], [⟨200, 0⟩], by decide⟩

/-- `test_calculate_fee` -/
example :
    (let g := ((((TxGraph.empty : Verif.TxGraph (TT fee)).insertTx ⟨0⟩).1.insertTx ⟨1⟩).1.insertTxout ⟨33, 0⟩ ⟨300, 0⟩).1
    g.calculateFee ⟨3, [⟨1, 0⟩, ⟨2, 0⟩, ⟨33, 0⟩], [⟨500, 0⟩], by decide⟩ = some 100 ∧
    g.calculateFee ⟨3, [⟨1, 0⟩, ⟨2, 0⟩], [⟨500, 0⟩], by decide⟩ = some (-200) ∧
    g.calculateFee ⟨3, [⟨1, 0⟩, ⟨2, 0⟩, ⟨44, 0⟩], [⟨500, 0⟩], by decide⟩ = none) := by decide +kernel

/-- `test_calculate_fee_on_coinbase` -/
example : (TxGraph.empty : Verif.TxGraph (TT coinbase1)).calculateFee (coinbase1 0) = some 0 := by decide +kernel

def confl : Fin 2 → Tx
  | 0 => ⟨20, [⟨7, 2⟩], [dflt], by decide⟩
  | 1 => ⟨10, [⟨20, 0⟩], [dflt], by decide⟩

/-- `test_conflicting_descendants` -/
example :
    (let g := (((TxGraph.empty : Verif.TxGraph (TT confl)).insertTx ⟨0⟩).1.insertTx ⟨1⟩).1
    (g.walkAll so (fun _ d t => ((), some (d, t))) (g.walkConflicts so ⟨30, [⟨7, 2⟩], [dflt, dflt], by decide⟩ ())).items) =
    [(0, 20), (1, 10)] := by decide +kernel

/-- 0-2: `txs_b`; 3, 4: `txs_c`; 5: `tx_d`; 6: `tx_e`; 7-16: `txs_not_connected`; `tx_a` has txid 1 and is not in the graph -/
def desc : Fin 17 → Tx := fun i =>
  if i = 0 then ⟨10, [⟨1, 0⟩], [dflt], by decide⟩
  else if i = 1 then ⟨11, [⟨1, 1⟩], [dflt], by decide⟩
  else if i = 2 then ⟨12, [⟨1, 2⟩], [dflt], by decide⟩
  else if i = 3 then ⟨13, [⟨10, 0⟩], [dflt], by decide⟩
  else if i = 4 then ⟨14, [⟨11, 1⟩], [dflt], by decide⟩
  else if i = 5 then ⟨15, [⟨13, 0⟩, ⟨14, 0⟩], [dflt], by decide⟩
  else if i = 6 then ⟨16, [⟨15, 0⟩], [dflt], by decide⟩
  else ⟨Fin.ofNat _ (i.val + 20), [⟨99, Fin.ofNat _ (i.val + 3)⟩], [dflt], by decide⟩

/-- `test_descendants_no_repeat` (with 3 instead of 10 unconnected transactions) -/
example :
    (let g := (([7, 8, 9, 0, 1, 2, 3, 4, 5, 6].map fun i => (⟨i⟩ : TT desc)).foldl (fun g t => (g.insertTx t).1) TxGraph.empty)
    let l := (g.walkAll so (fun _ _ t => ((), some t)) (g.walkDescendants so 1 ())).items
    l.isPerm [10, 11, 12, 13, 14, 15, 16]) := by decide +kernel

end Verif.Tests.TxGraph
