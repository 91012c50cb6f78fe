import Verif.Spec.Accounting

/-!
# Vocabulary of C82: when the history of a wallet adds up to its balance

The history a wallet shows is `transactions_in_chain` with `sent_and_received` (or `net_value`) of each transaction.
-/

namespace Verif.Spec
open Verif
variable {K D P T : Type} [LinearOrder K] [DescriptorOps D] [LinearOrder P] [ChainPosition P] [AsTransaction T] [LinearOrder T]

/-- what the index recorded for an output of a transaction of the chain is the output the transaction creates (the index is public: a
caller can make it scan an output that does not exist) -/
def Truthful (t : Tracker K D P T) : Prop :=
  ∀ op e x, t.txoutIndex.inner.txout op = some e → InChain t.chainGraph.chain op.txid →
    t.chainGraph.graph.getTx op.txid = some x → (asTx x).output[op.vout.val]? = some e.2

/-- every output of a transaction of the chain to a script that the index knows is recorded -/
def AllRecorded (t : Tracker K D P T) : Prop :=
  ∀ op out x, InChain t.chainGraph.chain op.txid → t.chainGraph.graph.getTx op.txid = some x →
    (asTx x).output[op.vout.val]? = some out → (t.txoutIndex.inner.indexOfSpk out.spk).isSome = true →
    (t.txoutIndex.inner.txout op).isSome = true

/-- a recorded output that a transaction of the chain spends belongs to a transaction of the chain -/
def ParentsInChain (t : Tracker K D P T) : Prop :=
  ∀ s y op, InChain t.chainGraph.chain s → t.chainGraph.graph.getTx s = some y → op ∈ (asTx y).input →
    (t.txoutIndex.inner.txout op).isSome = true → op.isNull = false ∧ InChain t.chainGraph.chain op.txid

/-- no transaction of the chain names an input twice (a consensus rule) -/
def DistinctInputs (t : Tracker K D P T) : Prop :=
  ∀ s y, InChain t.chainGraph.chain s → t.chainGraph.graph.getTx s = some y → (asTx y).input.Nodup

end Verif.Spec
