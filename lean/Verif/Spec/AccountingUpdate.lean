import Verif.Spec.Accounting

/-!
# Specification for C73, updates: what a whole update does to the money of a wallet
-/

namespace Verif.Spec
open Verif

section
variable {K D P T : Type} [LinearOrder K] [DescriptorOps D] [DecidableEq D] [LinearOrder P] [ChainPosition P] [AsTransaction T]
  [LinearOrder T]

/-- the update brings transaction `s`, with content `x`, which the wallet does not have in its chain -/
def Brings (t : Tracker K D P T) (u : ChainGraph P T) (s : Txid) (x : T) : Prop :=
  InChain u.chain s ∧ ¬ InChain t.chainGraph.chain s ∧ u.graph.getTx s = some x

/-- something the update brings conflicts with `c`, or with an ancestor of `c`, in the wallet's chain -/
def DisplacedByUpdate (t : Tracker K D P T) (u : ChainGraph P T) (c : Txid) : Prop :=
  ∃ s x, Brings t u s x ∧ ChainConflict t.chainGraph.chain t.chainGraph.graph (asTx x) c

/-- `c` is a transaction of the wallet or of the update and is not displaced -/
def Remains (t : Tracker K D P T) (u : ChainGraph P T) (c : Txid) : Prop :=
  (InChain t.chainGraph.chain c ∨ InChain u.chain c) ∧ ¬ DisplacedByUpdate t u c

/-- a transaction that survives spends `op` -/
def SpentByRemaining (t : Tracker K D P T) (u : ChainGraph P T) (op : OutPoint) : Prop :=
  ∃ s y, Remains t u s ∧ (t.chainGraph.graph.getTx s = some y ∨ u.graph.getTx s = some y) ∧ Spends (asTx y) op

/-- something the update brings spends `op` -/
def SpentByNews (t : Tracker K D P T) (u : ChainGraph P T) (op : OutPoint) : Prop :=
  ∃ s x, Brings t u s x ∧ Spends (asTx x) op

end
end Verif.Spec
