import Verif.Model.ChainGraph
import Verif.Spec.SparseChain
import Verif.Spec.TxGraph

/-!
# Specification vocabulary for `ChainGraph`
-/

namespace Verif.Spec
open Verif
variable {P T : Type} [LinearOrder P] [AsTransaction T]

/-- the chain has a position for the transaction -/
def InChain (c : SparseChain P) (t : Txid) : Prop := c.txPosition t ≠ none

/-- every transaction of the chain is in the graph in full -/
def AllFull (c : SparseChain P) (g : TxGraph T) : Prop := ∀ t, InChain c t → ∃ x, g.getTx t = some x

/-- no two different transactions of the chain spend the same output -/
def NoDoubleSpend (c : SparseChain P) (g : TxGraph T) : Prop :=
  ∀ a b x y o, InChain c a → InChain c b → g.getTx a = some x → g.getTx b = some y →
    o ∈ (asTx x).input → o ∈ (asTx y).input → o.isNull = false → a = b

/-- `c` conflicts with `tx`: it, or an ancestor of it in the chain, spends an output that `tx` spends.
The whole path from the direct conflict to `c` is in the chain. -/
def ChainConflict (ch : SparseChain P) (g : TxGraph T) (tx : Tx) (c : Txid) : Prop :=
  InChain ch c ∧ ReachVia g (fun t => ∃ vin, ConflictsAt g tx vin t) (InChain ch) c

/-- transaction `t` (with content `x`) is new in `after`, and `c`, of the chain before, conflicts with it -/
def Displaces (before after : SparseChain P) (g g' : TxGraph T) (t c : Txid) : Prop :=
  ¬ InChain before t ∧ InChain after t ∧ ∃ x, g'.getTx t = some x ∧ ChainConflict before g (asTx x) c

/-- the chain has the transaction as unconfirmed -/
def IsUnconfirmed [ChainPosition P] (c : SparseChain P) (t : Txid) : Prop :=
  ∃ p, c.txPosition t = some p ∧ ChainPosition.height p = .unconfirmed

/-- the chain has the transaction as confirmed -/
def IsConfirmed [ChainPosition P] (c : SparseChain P) (t : Txid) : Prop :=
  ∃ p h, c.txPosition t = some p ∧ ChainPosition.height p = .confirmed h

end Verif.Spec
