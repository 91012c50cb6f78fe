import Verif.Spec.SparseChain
import Verif.Model.Tracker

/-!
# Specification vocabulary for chains with and without a checkpoint limit (C78)
-/

namespace Verif.Spec
open Verif

section chain
variable {P : Type} [LinearOrder P] [ChainPosition P]

/-- `l` is a chain with a checkpoint limit (of at least one) or none, `c` one without: `l` knows the same transactions at the same positions,
the same tip, and of the older blocks some that `c` knows and no others -/
structure Forgets (l c : SparseChain P) : Prop where
  positions : ∀ t, l.txPosition t = c.txPosition t
  listing : l.txids = c.txids
  blocks : ∀ h b, l.checkpointAt h = some b → c.checkpointAt h = some b
  tip : l.latestCheckpoint = c.latestCheckpoint
  heights : ∀ h, HasCp c h → h ≤ u32Max
  unlimited : c.checkpointLimit = none
  limit : l.checkpointLimit ≠ some 0

/-- the update is within reach of what `l` remembers of `c`: it has no blocks, or nothing was forgotten so far, or it has a block that
`l` still has and nothing was forgotten above that block -/
def WithinReach (l c u : SparseChain P) : Prop :=
  (∀ h, ¬ HasCp u h) ∨ (∀ h, l.checkpointAt h = c.checkpointAt h) ∨
    ∃ h, Agree l u h ∧ ∀ k, h ≤ k → l.checkpointAt k = c.checkpointAt k

end chain

section tracker
variable {K D P T : Type} [LinearOrder K] [DescriptorOps D] [LinearOrder P] [ChainPosition P] [LinearOrder T] [AsTransaction T]

/-- two trackers that differ at most in old blocks -/
structure SameWallet (l c : Tracker K D P T) : Prop where
  index : l.txoutIndex = c.txoutIndex
  graph : l.chainGraph.graph = c.chainGraph.graph
  chain : Forgets l.chainGraph.chain c.chainGraph.chain

/-- what the theorem asks of one call -/
def CallWithinReach (l c : Tracker K D P T) : Tracker.Op K P T → Prop
  | .applyUpdate scan _ => WithinReach l.chainGraph.chain c.chainGraph.chain scan.update.chain ∧
      ∀ h, HasCp scan.update.chain h → h ≤ u32Max
  | .insertCheckpoint b _ => b.height ≤ u32Max
  | _ => True

/-- every call of the history is within reach when it is made -/
def HistoryWithinReach (l c : Tracker K D P T) : List (Tracker.Op K P T) → Prop
  | [] => True
  | op :: ops => CallWithinReach l c op ∧
      ∀ rl rc, l.step op = some rl → c.step op = some rc → HistoryWithinReach rl.1 rc.1 ops

/-- two reports differ at most in the blocks they mention -/
def SameReport : Option (KeychainChangeSet K P T) → Option (KeychainChangeSet K P T) → Prop
  | none, none => True
  | some a, some b => a.derivationIndices = b.derivationIndices ∧ a.chainGraph.graph = b.chainGraph.graph ∧
      a.chainGraph.chain.txids = b.chainGraph.chain.txids
  | _, _ => False

end tracker
end Verif.Spec
