import Verif.Props.Limits
import Verif.Props.ChainGraph

/-!
# C29 with a checkpoint limit
-/

namespace Verif.Props
open Verif Verif.Spec Verif.ChainGraph
variable {P T : Type} [LinearOrder P] [ChainPosition P] [LawfulChainPosition P] [AsTransaction T] [LawfulTx T] [LinearOrder T]

/-- **C29** with a limit: `append` composes if the second changeset removes no block (and there are no two witness versions of one
transaction) -/
theorem C29_append_only_adding (cg : ChainGraph P T) (h : Reachable cg) (a b : CGChangeSet P T)
    (hb : ∀ k, b.chain.checkpoints.get k ≠ some none)
    (hv : ∀ t t', a.graph.tx.mem t = true → b.graph.tx.mem t' = true → (asTx t).txid = (asTx t').txid → t = t') :
    cg.applyChangeset (a.append b) = (cg.applyChangeset a).applyChangeset b := by
  have hi := reachable_inv h
  have h1 := C07_append_only_adding cg.chain a.chain b.chain (SparseChain.positionsAgree_of_consistent hi.cons) hb
  have h2 := C19_append_is_sequential cg.graph (graph_reachable h) a.graph b.graph hv
  unfold ChainGraph.applyChangeset CGChangeSet.append
  simp only [h1, h2]

/-- the hypotheses are met by a chain graph with a limit -/
example : ∃ (cg : ChainGraph TxHeight DemoTx) (a b : CGChangeSet TxHeight DemoTx), Reachable cg ∧ cg.chain.checkpointLimit = some 1 ∧
    (∀ k, b.chain.checkpoints.get k ≠ some none) ∧ a.graph.tx.mem (d 1) = true ∧ cg.applyChangeset (a.append b) ≠ cg ∧
    (cg.applyChangeset (a.append b)).chain.checkpoints.entries = [(9, 19)] := by
  refine ⟨(ChainGraph.empty.insertCheckpoint ⟨8, 18⟩ oId).1.setCheckpointLimit (some 1),
    ⟨⟨OMap.empty, OMap.empty.insert (dId 1) (some .unconfirmed)⟩, ⟨OSet.ofList [d 1], OMap.empty⟩⟩,
    ⟨⟨OMap.empty.insert 9 (some 19), OMap.empty⟩, Additions.empty⟩, .setCheckpointLimit _ (.insertCheckpoint _ _ .empty), ?_, ?_, ?_, ?_, ?_⟩
  · decide
  · intro k
    show (OMap.empty.insert 9 (some 19)).get k ≠ some none
    rw [OMap.get_insert]
    split <;> simp [OMap.get_empty]
  · decide
  · decide
  · decide

end Verif.Props
