import Verif.Spec.Sync
import Verif.Spec.Exchange
import Verif.Model.Tracker

/-!
# Specification vocabulary for two devices that hold the same wallet (C77)
-/

namespace Verif.Spec
open Verif

section
variable {K D P T : Type} [LinearOrder K] [DescriptorOps D] [DecidableEq D] [LinearOrder P] [ChainPosition P] [AsTransaction T]
  [LinearOrder T]

/-- what a device tells the other one: everything it knows of the chain, and how far it has revealed its scripts -/
def shared (t : Tracker K D P T) : KeychainScan K P T := ⟨t.chainGraph, t.txoutIndex.lastRevealed⟩

/-- `spk` is the script number `i` of keychain `k`, derived or not -/
def ScriptOf (s : KeychainIndex K D) (k : K) (i : Nat) (spk : Script) : Prop :=
  ∃ d, s.keychains.get k = some d ∧ i ≤ cap d ∧ DescriptorOps.spkAt d i = some spk

/-- the wallet has recorded exactly those outputs it has seen that pay any script of its keychains -/
def ExactRecords (t : Tracker K D P T) : Prop :=
  ∀ op k i out, t.txoutIndex.inner.txout op = some (toLex (k, i), out) ↔
    t.chainGraph.graph.getTxout op = some out ∧ ScriptOf t.txoutIndex k i out.spk

/-- the graph says nothing wrong about outputs: `f` are the outputs that exist (a transaction id commits to its outputs) -/
def TrueOutputs (f : OutPoint → Option TxOut) (g : TxGraph T) : Prop :=
  (∀ op x, g.getTxout op = some x → f op = some x) ∧ ∀ op, g.getTx op.txid ≠ none → g.getTxout op = f op

/-- a wallet in working order: built by the API, far from the numeric limits, without a limit on checkpoints -/
structure Working (t : Tracker K D P T) : Prop where
  reachable : t.Reachable
  derivable : AllDerivable t.txoutIndex
  distinct : NoCollision t.txoutIndex
  room : Sync.Room t.txoutIndex
  range : ∀ k i, t.txoutIndex.lastRevealedIndex k = some i → i ≤ bip32MaxIndex
  heights : HeightsOk t.chainGraph.chain
  unlimited : t.chainGraph.chain.checkpointLimit = none

end
end Verif.Spec
