import Verif.Model.Tracker

/-!
# Specification vocabulary for `KeychainTracker`
-/

namespace Verif.Spec
open Verif
variable {K P : Type} [LinearOrder P] [ChainPosition P]

/-- confirmed, in block `c` -/
def ConfirmedAt (f : FullTxOut P) (c : Nat) : Prop := ChainPosition.height f.chainPosition = .confirmed c

/-- spent by a transaction confirmed at or below `h` -/
def SpentBy (f : FullTxOut P) (h : Nat) : Prop :=
  ∃ p t c, f.spentBy = some (p, t) ∧ ChainPosition.height p = .confirmed c ∧ c ≤ h

/-- the four categories of a balance -/
inductive Bucket where
  | immature | trustedPending | untrustedPending | confirmed
deriving DecidableEq, Repr

/-- the category an unspent output of keychain `k` belongs to when the tip is at height `tip`: a coinbase output needs 100
confirmations, the block it is in included -/
def bucketOf (tip : Nat) (trust : K → Bool) (k : K) (f : FullTxOut P) : Bucket :=
  match ChainPosition.height f.chainPosition with
  | .confirmed c => if f.isOnCoinbase && decide (tip + 1 < c + 100) then .immature else .confirmed
  | .unconfirmed => if trust k then .trustedPending else .untrustedPending

/-- sum of the values of the outputs of the list -/
def valueOf (l : List ((K × Nat) × FullTxOut P)) : Nat := (l.map (fun e => e.2.txout.value)).sum

/-- the amount recorded for a category -/
def Balance.at (b : Balance) : Bucket → Nat
  | .immature => b.immature
  | .trustedPending => b.trustedPending
  | .untrustedPending => b.untrustedPending
  | .confirmed => b.confirmed

/-- the same index, but for the marks set with `mark_used` -/
def SameButMarks {K D : Type} [LinearOrder K] (s s' : KeychainIndex K D) : Prop :=
  s'.keychains = s.keychains ∧ s'.lastRevealed = s.lastRevealed ∧ s'.lookahead = s.lookahead ∧
  s'.inner.spks = s.inner.spks ∧ s'.inner.spkIndices = s.inner.spkIndices ∧
  s'.inner.txouts = s.inner.txouts ∧ s'.inner.spkTxouts = s.inner.spkTxouts

end Verif.Spec
