import Verif.Model.SparseChain

/-!
# Specification vocabulary for `SparseChain`

Stated with the public accessors `checkpoint_at`, `tx_position` and `txids` only.
-/

namespace Verif.Spec
open Verif
variable {P : Type} [LinearOrder P] [ChainPosition P]

/-- there is a checkpoint at height `h` -/
def HasCp (c : SparseChain P) (h : Nat) : Prop := ∃ b, c.checkpointAt h = some b
/-- both chains have the same block at height `h` -/
def Agree (c u : SparseChain P) (h : Nat) : Prop := ∃ b, c.checkpointAt h = some b ∧ u.checkpointAt h = some b
/-- `h` is the highest checkpoint of `c` -/
def IsTip (c : SparseChain P) (h : Nat) : Prop := HasCp c h ∧ ∀ h', HasCp c h' → h' ≤ h
/-- the update's highest block is not one the chain already has -/
def Diverges (c u : SparseChain P) : Prop := ∃ t, IsTip u t ∧ ¬ Agree c u t
/-- height `h` is above every block the two chains agree on -/
def AboveAgreement (c u : SparseChain P) (h : Nat) : Prop := ∀ a, Agree c u a → a < h
/-- `f` is the lowest block of `c` that the update claims not to be in the best chain -/
def FirstInvalid (c u : SparseChain P) (f : Nat) : Prop :=
  Diverges c u ∧ HasCp c f ∧ AboveAgreement c u f ∧ ∀ f', HasCp c f' → AboveAgreement c u f' → f ≤ f'
/-- the update does not connect: it says nothing about the first block it would invalidate -/
def Disconnected (c u : SparseChain P) (f : Nat) : Prop := FirstInvalid c u f ∧ ¬ HasCp u f
/-- height `h` of `c` is invalidated by the update -/
def Invalidated (c u : SparseChain P) (h : Nat) : Prop := ∃ f, FirstInvalid c u f ∧ f ≤ h
/-- a transaction confirmed at `h` may not change position: it is covered by a block both agree on, or
the update does not displace any block -/
def Settled (c u : SparseChain P) (h : Nat) : Prop := Diverges c u → ∃ a, Agree c u a ∧ h ≤ a
/-- the update moves a settled transaction -/
def MovesSettled (c u : SparseChain P) (t : Txid) (p q : P) : Prop :=
  c.txPosition t = some p ∧ u.txPosition t = some q ∧ p ≠ q ∧
    ∃ h, ChainPosition.height p = .confirmed h ∧ Settled c u h

/-- `u32::MAX` is not used as a block height (the code uses it as a sentinel) -/
def HeightsOk (c : SparseChain P) : Prop :=
  (∀ h, HasCp c h → h < u32Max) ∧
  (∀ t p h, c.txPosition t = some p → ChainPosition.height p = .confirmed h → h < u32Max)

/-- `txids()` and `tx_position` describe the same set of positioned transactions -/
def PositionsAgree (c : SparseChain P) : Prop :=
  (∀ p t, (p, t) ∈ c.txids ↔ c.txPosition t = some p) ∧
  c.txids.Pairwise (fun a b => a.1 < b.1 ∨ (a.1 = b.1 ∧ a.2 < b.2)) ∧
  (c.txids.map Prod.snd).Nodup

/-- no transaction is confirmed above the tip -/
def ConfirmedBelowTip (c : SparseChain P) : Prop :=
  ∀ t p h, c.txPosition t = some p → ChainPosition.height p = .confirmed h → ∃ tip, IsTip c tip ∧ h ≤ tip

/-- number of checkpoints above height `h` -/
def cpsAbove (c : SparseChain P) (h : Nat) : Nat := (c.checkpoints.keys.filter (fun k => decide (h < k))).length

end Verif.Spec
