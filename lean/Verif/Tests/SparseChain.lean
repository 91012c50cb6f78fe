import Verif.Model.SparseChain

/-!
# The unit tests of the repository, run on the model: bdk_chain/tests/test_sparse_chain.rs

These are not proofs of properties, but a check that the model behaves as the authors of the code say that the code does: each
example is one of their tests, transcribed.  Hashes (`h!("A")`) are small numbers, different for different strings.
-/

namespace Verif.Tests.SparseChain
open Verif Verif.SparseChain

deriving instance DecidableEq for Except

/-- test_sparse_chain.rs:8-23 `struct TestIndex` -/
abbrev TestIndex := TxHeight ×ₗ Fin (2 ^ 32)
instance : ChainPosition TestIndex where
  height p := (ofLex p).1
  maxOrd h := toLex (h, ⟨2 ^ 32 - 1, by decide⟩)
  minOrd h := toLex (h, ⟨0, by decide⟩)
instance : DecidableEq (TestIndex × Txid) := instDecidableEqProd
instance : DecidableEq (Option (List (Option (List (TestIndex × Txid))))) := inferInstance

def ho {α : Type} : HashOrder α := HashOrder.id α

variable {P : Type} [LinearOrder P] [ChainPosition P]

/-- common/mod.rs:9-25 `chain!`; `none`: an `insert_tx` did not succeed -/
def chain (cps : List (Nat × Nat)) (txids : List (Txid × P) := []) : Option (SparseChain P) :=
  txids.foldlM (fun c t => match c.insertTx t.1 t.2 ho with
    | (c', .ok _) => some c'
    | _ => none) (fromCheckpoints (cps.map fun c => ⟨c.1, c.2⟩))

/-- common/mod.rs:27-48 `changeset!` -/
def changeset (cps : List (Nat × Option Nat)) (txids : List (Txid × Option P) := []) : ChangeSet P := ⟨OMap.ofList cps, OMap.ofList txids⟩

/-- `chain1.determine_changeset(&chain2)` -/
def determine (a b : Option (SparseChain P)) : Option (Except (UpdateError P) (ChangeSet P)) := do return (← a).determineChangeset (← b) ho

open TxHeight

abbrev A := 1
abbrev A' := 2
abbrev B := 3
abbrev B' := 4
abbrev C := 5
abbrev C' := 6
abbrev D := 7
abbrev E := 8
abbrev F := 9
abbrev G := 10
abbrev tx0 : Txid := 100
abbrev tx1 : Txid := 101

/-- `add_first_checkpoint` -/
example : determine (some SparseChain.empty) (chain (P := TxHeight) [(0, A)]) = some (.ok (changeset [(0, some A)])) := by decide +kernel
/-- `add_second_tip` -/
example : determine (chain (P := TxHeight) [(0, A)]) (chain [(0, A), (1, B)]) = some (.ok (changeset [(1, some B)])) := by decide +kernel
/-- `two_disjoint_chains_cannot_merge` -/
example : determine (chain (P := TxHeight) [(0, A)]) (chain [(1, B)]) = some (.error (.notConnected 0)) := by decide +kernel
/-- `duplicate_chains_should_merge` -/
example : determine (chain (P := TxHeight) [(0, A)]) (chain [(0, A)]) = some (.ok .empty) := by decide +kernel
/-- `duplicate_chains_with_txs_should_merge` -/
example : determine (chain [(0, A)] [(tx0, confirmed 0)]) (chain [(0, A)] [(tx0, confirmed 0)]) = some (.ok .empty) := by decide +kernel
/-- `duplicate_chains_with_different_txs_should_merge` -/
example : determine (chain [(0, A)] [(tx0, confirmed 0)]) (chain [(0, A)] [(tx1, confirmed 0)]) =
    some (.ok (changeset [] [(tx1, some (confirmed 0))])) := by decide +kernel
/-- `invalidate_first_and_only_checkpoint_without_tx_changes` -/
example : determine (chain [(0, A)] [(tx0, confirmed 0)]) (chain [(0, A')] [(tx0, confirmed 0)]) =
    some (.ok (changeset [(0, some A')])) := by decide +kernel
/-- `invalidate_first_and_only_checkpoint_with_tx_move_forward` -/
example : determine (chain [(0, A)] [(tx0, confirmed 0)]) (chain [(0, A'), (1, B)] [(tx0, confirmed 1)]) =
    some (.ok (changeset [(0, some A'), (1, some B)] [(tx0, some (confirmed 1))])) := by decide +kernel
/-- `invalidate_first_and_only_checkpoint_with_tx_move_backward` -/
example : determine (chain [(1, B)] [(tx0, confirmed 1)]) (chain [(0, A), (1, B')] [(tx0, confirmed 0)]) =
    some (.ok (changeset [(0, some A), (1, some B')] [(tx0, some (confirmed 0))])) := by decide +kernel
/-- `invalidate_a_checkpoint_and_try_and_move_tx_when_it_wasnt_within_invalidation` -/
example : determine (chain [(0, A), (1, B)] [(tx0, confirmed 0)]) (chain [(0, A), (1, B')] [(tx0, confirmed 1)]) =
    some (.error (.txInconsistent tx0 (confirmed 0) (confirmed 1))) := by decide +kernel
/-- `move_invalidated_tx_into_earlier_checkpoint` -/
example : determine (chain [(0, A), (1, B)] [(tx0, confirmed 1)]) (chain [(0, A), (1, B')] [(tx0, confirmed 0)]) =
    some (.ok (changeset [(1, some B')] [(tx0, some (confirmed 0))])) := by decide +kernel
/-- `invalidate_first_and_only_checkpoint_with_tx_move_to_mempool` -/
example : determine (chain [(0, A)] [(tx0, confirmed 0)]) (chain [(0, A')] [(tx0, unconfirmed)]) =
    some (.ok (changeset [(0, some A')] [(tx0, some unconfirmed)])) := by decide +kernel
/-- `confirm_tx_without_extending_chain` -/
example : determine (chain [(0, A)] [(tx0, unconfirmed)]) (chain [(0, A)] [(tx0, confirmed 0)]) =
    some (.ok (changeset [] [(tx0, some (confirmed 0))])) := by decide +kernel
/-- `confirm_tx_backwards_while_extending_chain` -/
example : determine (chain [(0, A)] [(tx0, unconfirmed)]) (chain [(0, A), (1, B)] [(tx0, confirmed 0)]) =
    some (.ok (changeset [(1, some B)] [(tx0, some (confirmed 0))])) := by decide +kernel
/-- `confirm_tx_in_new_block` -/
example : determine (chain [(0, A)] [(tx0, unconfirmed)]) (chain [(0, A), (1, B)] [(tx0, confirmed 1)]) =
    some (.ok (changeset [(1, some B)] [(tx0, some (confirmed 1))])) := by decide +kernel
/-- `merging_mempool_of_empty_chains_doesnt_fail` -/
example : determine (chain [] [(tx0, unconfirmed)]) (chain [] [(tx1, unconfirmed)]) =
    some (.ok (changeset [] [(tx1, some unconfirmed)])) := by decide +kernel
/-- `cannot_insert_confirmed_tx_without_checkpoints` -/
example : (SparseChain.empty : SparseChain TxHeight).insertTxPreview 1 (confirmed 0) ho = .err (.txTooHigh 1 0 none) := by decide +kernel
/-- `empty_chain_can_add_unconfirmed_transactions` -/
example : determine (chain [(0, A)] []) (chain [] [(tx0, unconfirmed)]) = some (.ok (changeset [] [(tx0, some unconfirmed)])) := by
  decide +kernel
/-- `can_update_with_shorter_chain` -/
example : determine (chain [(1, B), (2, C)] []) (chain [(1, B)] [(tx0, confirmed 1)]) =
    some (.ok (changeset [] [(tx0, some (confirmed 1))])) := by decide +kernel
/-- `can_introduce_older_checkpoints` -/
example : determine (chain (P := TxHeight) [(2, C), (3, D)]) (chain [(1, B), (2, C)]) = some (.ok (changeset [(1, some B)])) := by
  decide +kernel
/-- `fix_blockhash_before_agreement_point` -/
example : determine (chain (P := TxHeight) [(0, 70), (1, 71)]) (chain [(0, 72), (1, 71)]) = some (.ok (changeset [(0, some 72)])) := by
  decide +kernel
/-- `cannot_change_ext_index_of_confirmed_tx` -/
example : determine (chain (P := TestIndex) [(1, A)] [(tx0, toLex (confirmed 1, 10))]) (chain [(1, A)] [(tx0, toLex (confirmed 1, 20))]) =
    some (.error (.txInconsistent tx0 (toLex (confirmed 1, 10)) (toLex (confirmed 1, 20)))) := by decide +kernel
/-- `can_change_index_of_unconfirmed_tx` -/
example : determine (chain (P := TestIndex) [(1, A)] [(tx1, toLex (unconfirmed, 10))]) (chain [(1, A)] [(tx1, toLex (unconfirmed, 20))]) =
    some (.ok (changeset [] [(tx1, some (toLex (unconfirmed, 20)))])) := by decide +kernel
/-- `two_points_of_agreement` -/
example : determine (chain (P := TxHeight) [(1, B), (2, C)]) (chain [(0, A), (1, B), (2, C), (3, D)]) =
    some (.ok (changeset [(0, some A), (3, some D)])) := by decide +kernel
/-- `update_and_chain_does_not_connect` -/
example : determine (chain (P := TxHeight) [(1, B), (2, C)]) (chain [(0, A), (1, B), (3, D)]) = some (.error (.notConnected 2)) := by
  decide +kernel
/-- `transitive_invalidation_applies_to_checkpoints_higher_than_invalidation` -/
example : determine (chain [(0, A), (2, B), (3, C), (5, E)]
      [(200, confirmed 0), (201, confirmed 1), (202, confirmed 2), (203, confirmed 3), (204, confirmed 5)])
    (chain [(0, A), (2, B'), (3, C'), (4, D)] [(201, confirmed 4), (202, confirmed 3)]) =
    some (.ok (changeset [(2, some B'), (3, some C'), (4, some D), (5, none)]
      [(201, some (confirmed 4)), (202, some (confirmed 3)), (203, some unconfirmed), (204, some unconfirmed)])) := by decide +kernel
/-- `transitive_invalidation_applies_to_checkpoints_higher_than_invalidation_no_point_of_agreement` -/
example : determine (chain (P := TxHeight) [(1, B), (2, C), (4, E)]) (chain [(1, B'), (2, C'), (3, D)]) =
    some (.ok (changeset [(1, some B'), (2, some C'), (3, some D), (4, none)])) := by decide +kernel
/-- `invalidation_but_no_connection` -/
example : determine (chain (P := TxHeight) [(0, A), (1, B), (2, C), (4, E)]) (chain [(1, B'), (2, C'), (3, D)]) =
    some (.error (.notConnected 0)) := by decide +kernel

/-- `checkpoint_limit_is_respected`: the number of checkpoints at the four points, and the changeset of the last update -/
example : (do
    let u ← chain (P := TxHeight) [(1, A), (2, B), (3, C), (4, D), (5, E)]
    let c1 := (SparseChain.empty.applyUpdate u ho).1
    let c2 := c1.setCheckpointLimit (some 4)
    let c3 := (c2.insertCheckpoint ⟨6, F⟩ ho).1
    let v ← chain [(6, F), (7, G)]
    match c3.determineChangeset v ho with
    | .error _ => none
    | .ok cs => some ([c1, c2, c3, c3.applyChangeset cs].map (fun c => c.checkpoints.entries.length), cs)) =
    some ([5, 4, 4, 4], changeset [(7, some G)]) := by decide +kernel

def txidsH : List (TestIndex × Txid) :=
  [(toLex (confirmed 1, 0), minTxid), (toLex (confirmed 1, ⟨2 ^ 32 - 1, by decide⟩), 0xfefefefefefefefefefefefefefefefefefefefefefefefefefefefefefefefe),
   (toLex (confirmed 2, 0), 0x0101010101010101010101010101010101010101010101010101010101010101),
   (toLex (confirmed 2, ⟨2 ^ 32 - 1, by decide⟩), maxTxid)]

/-- `range_txids_by_height` -/
example : (do
    let c ← chain [(1, 80), (2, 81)] (txidsH.map fun e => (e.2, e.1))
    return [c.rangeTxidsByHeight (.included (confirmed 1)) .unbounded, c.rangeTxidsByHeight (.excluded (confirmed 1)) .unbounded,
      c.rangeTxidsByHeight .unbounded (.included (confirmed 2)), c.rangeTxidsByHeight .unbounded (.excluded (confirmed 2))]) =
    some [some txidsH, some (txidsH.drop 2), some (txidsH.take 4), some (txidsH.take 2)] := by decide +kernel

def txidsP : List (TestIndex × Txid) :=
  [(toLex (confirmed 1, 0), 54), (toLex (confirmed 1, ⟨2 ^ 32 - 1, by decide⟩), 53), (toLex (confirmed 2, 0), 52),
   (toLex (confirmed 2, ⟨2 ^ 32 - 1, by decide⟩), 51)]

/-- `range_txids_by_index` -/
example : (do
    let c ← chain [(1, 80), (2, 81)] (txidsP.map fun e => (e.2, e.1))
    let m : Fin (2 ^ 32) := ⟨2 ^ 32 - 1, by decide⟩
    return [c.rangeTxidsByPosition (.included (toLex (confirmed 1, 0))) .unbounded, c.rangeTxidsByPosition (.included (toLex (confirmed 1, m))) .unbounded,
      c.rangeTxidsByPosition (.excluded (toLex (confirmed 1, 0))) .unbounded, c.rangeTxidsByPosition (.excluded (toLex (confirmed 1, m))) .unbounded,
      c.rangeTxidsByPosition .unbounded (.included (toLex (confirmed 2, 0))), c.rangeTxidsByPosition .unbounded (.included (toLex (confirmed 2, m))),
      c.rangeTxidsByPosition .unbounded (.excluded (toLex (confirmed 2, 0))), c.rangeTxidsByPosition .unbounded (.excluded (toLex (confirmed 2, m)))]) =
    some [some txidsP, some (txidsP.drop 1), some (txidsP.drop 1), some (txidsP.drop 2), some (txidsP.take 3), some (txidsP.take 4),
      some (txidsP.take 2), some (txidsP.take 3)] := by decide +kernel

def txidsR : List Txid := (List.range 12).map (fun i => Fin.ofNat _ (7 * (i + 1)))

/-- `range_txids` (with 12 instead of 100 transactions) -/
example : (do
    let c ← chain [] (txidsR.reverse.map fun t => (t, unconfirmed))
    return (txidsR.map fun t =>
      [c.rangeTxids (.included (toLex (unconfirmed, t))) .unbounded, c.rangeTxids (.excluded (toLex (unconfirmed, t))) .unbounded,
       c.rangeTxids .unbounded (.excluded (toLex (unconfirmed, t)))].map (fun l => l.map (fun l => l.map Prod.snd)))) =
    some (txidsR.map fun t => [some (txidsR.filter (fun x => t ≤ x)), some (txidsR.filter (fun x => t < x)), some (txidsR.filter (fun x => x < t))]) := by
  decide +kernel

/-- `invalidated_txs_move_to_unconfirmed` -/
example : determine (chain [(0, A), (1, B), (2, C)] [(200, confirmed 0), (201, confirmed 1), (202, confirmed 2), (203, unconfirmed)])
    (chain [(0, A), (1, B')]) =
    some (.ok (changeset [(1, some B'), (2, none)] [(201, some unconfirmed), (202, some unconfirmed)])) := by decide +kernel

/-- `change_tx_position_from_unconfirmed_to_confirmed` -/
example : (let c1 := ((SparseChain.empty : SparseChain TxHeight).insertTx tx0 unconfirmed ho).1
    let c2 := (c1.insertCheckpoint ⟨0, A⟩ ho).1
    let c3 := (c2.insertTx tx0 (confirmed 0) ho).1
    (c1.txPosition tx0, c3.txPosition tx0)) = (some unconfirmed, some (confirmed 0)) := by decide +kernel

end Verif.Tests.SparseChain
