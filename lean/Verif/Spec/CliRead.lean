import Verif.Model.CliRead
import Verif.Spec.Cli

/-!
# Specification vocabulary for the printing commands
-/

namespace Verif.Spec
open Verif Verif.Cli
variable {K D P T : Type} [LinearOrder K] [DescriptorOps D] [LinearOrder P] [ChainPosition P] [AsTransaction T]

/-- in a block -/
def InBlock (f : FullTxOut P) : Prop := ∃ c, ConfirmedAt f c

instance (f : FullTxOut P) : Decidable (InBlock f) :=
  match h : ChainPosition.height f.chainPosition with
  | .confirmed c => isTrue ⟨c, h⟩
  | .unconfirmed => isFalse fun ⟨c, hc⟩ => by unfold ConfirmedAt at hc; rw [h] at hc; cases hc

/-- the flags of `txout list` ask for this output: `--unspent` alone for unspent ones, `--spent` alone for spent ones, both or none for
all; likewise for `--confirmed` and `--unconfirmed` -/
def Wanted (f : TxoFlags) (o : FullTxOut P) : Prop :=
  (f.unspent = true → f.spent = false → o.spentBy = none) ∧
  (f.spent = true → f.unspent = false → o.spentBy ≠ none) ∧
  (f.confirmed = true → f.unconfirmed = false → InBlock o) ∧
  (f.unconfirmed = true → f.confirmed = false → ¬ InBlock o)

/-- an output of the wallet's chain that the wallet has recorded under index `i` of keychain `k` -/
def WalletOutput (t : Tracker K D P T) (so : SpendOrder) (k : K) (i : Nat) (o : FullTxOut P) : Prop :=
  (∃ x, t.txoutIndex.inner.txout o.outpoint = some (toLex (k, i), x)) ∧ t.chainGraph.fullTxout so o.outpoint = some o

end Verif.Spec
