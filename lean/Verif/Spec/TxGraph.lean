import Verif.Model.TxGraph

/-!
# Specification vocabulary for `TxGraph`, in terms of `get_tx`, `get_txout`, `outspends`.
-/

namespace Verif.Spec
open Verif
variable {T : Type} [AsTransaction T]

/-- the full transaction with id `t` is in the graph and spends `o` (coinbase inputs do not count) -/
def SpentByInGraph (g : TxGraph T) (o : OutPoint) (t : Txid) : Prop :=
  ∃ x, g.getTx t = some x ∧ o ∈ (asTx x).input ∧ o.isNull = false

/-- the graphs do not contradict each other: the same version of each shared transaction, the same content for each
shared output -/
def Compatible (g u : TxGraph T) : Prop :=
  (∀ k t t', g.getTx k = some t → u.getTx k = some t' → t = t') ∧
  (∀ o x x', g.getTxout o = some x → u.getTxout o = some x' → x = x')

/-- `c` spends an output of `p` according to the graph -/
def ChildOf (g : TxGraph T) (p c : Txid) : Prop := ∃ v, (g.outspends ⟨p, v⟩).mem c = true

/-- reachable from a start set by steps from accepted transactions to their children -/
inductive ReachVia (g : TxGraph T) (start : Txid → Prop) (acc : Txid → Prop) : Txid → Prop where
  | start {t} : start t → ReachVia g start acc t
  | step {p c} : ReachVia g start acc p → acc p → ChildOf g p c → ReachVia g start acc c

/-- `d` is the length of some path of accepted transactions from the start set (whose depth is `d0`) -/
inductive PathLen (g : TxGraph T) (start : Txid → Prop) (acc : Txid → Prop) (d0 : Nat) : Nat → Txid → Prop where
  | start {t} : start t → PathLen g start acc d0 d0 t
  | step {d p c} : PathLen g start acc d0 d p → acc p → ChildOf g p c → PathLen g start acc d0 (d + 1) c

/-- `t'` directly conflicts with `tx` on its input number `vin` -/
def ConflictsAt (g : TxGraph T) (tx : Tx) (vin : Nat) (t' : Txid) : Prop :=
  ∃ o, tx.input[vin]? = some o ∧ SpentByInGraph g o t' ∧ t' ≠ tx.txid

end Verif.Spec
