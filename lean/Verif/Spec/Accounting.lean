import Verif.Spec.Tracker
import Verif.Spec.ChainGraph
import Verif.Model.Tracker

/-!
# Specification for C73: what recording a transaction does to the money of a wallet
-/

namespace Verif.Spec
open Verif

section
variable {K D P T : Type} [LinearOrder K] [DescriptorOps D] [DecidableEq D] [LinearOrder P] [ChainPosition P] [AsTransaction T]
  [LinearOrder T]

/-- `tx` spends `op` (a coinbase "spends" the null outpoint, which is not an output) -/
def Spends (tx : Tx) (op : OutPoint) : Prop := op ∈ tx.input ∧ op.isNull = false

instance (tx : Tx) (op : OutPoint) : Decidable (Spends tx op) := by unfold Spends; infer_instance

/-- the wallet reports, among its outputs, `out` at `op`, paid to its script `i` of keychain `k` -/
def HasOutput (t : Tracker K D P T) (so : SpendOrder) (k : K) (i : Nat) (op : OutPoint) (out : TxOut) : Prop :=
  ∃ f, ((k, i), f) ∈ t.fullTxouts so ∧ f.outpoint = op ∧ f.txout = out

/-- the wallet reports this output as unspent -/
def HasUnspent (t : Tracker K D P T) (so : SpendOrder) (k : K) (i : Nat) (op : OutPoint) (out : TxOut) : Prop :=
  ∃ f, ((k, i), f) ∈ t.fullUtxos so ∧ f.outpoint = op ∧ f.txout = out

/-- recording `tx` displaces transaction `c`: `tx` is not in the chain and `c` or an ancestor of it is a conflict -/
def DisplacedBy (t : Tracker K D P T) (tx : T) (c : Txid) : Prop :=
  ¬ InChain t.chainGraph.chain (asTx tx).txid ∧ ChainConflict t.chainGraph.chain t.chainGraph.graph (asTx tx) c

/-- no other transaction of the chain spends an output that `tx` spends -/
def NoConflict (t : Tracker K D P T) (tx : T) : Prop :=
  ∀ c y op, InChain t.chainGraph.chain c → t.chainGraph.graph.getTx c = some y → Spends (asTx y) op → Spends (asTx tx) op →
    c = (asTx tx).txid

end
end Verif.Spec
