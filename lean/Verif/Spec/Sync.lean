import Verif.Model.Sync
import Verif.Spec.Esplora
import Verif.Spec.Tracker
import Verif.Spec.KeychainIndex

/-!
# Specification vocabulary for the commands of the example wallets
-/

namespace Verif.Sync
open Verif Spec
variable {K D P T : Type} [LinearOrder K] [DescriptorOps D] [LinearOrder P] [ChainPosition P] [LinearOrder T] [AsTransaction T]

/-- the transactions of the best chain and the mempool at one moment, with their positions -/
abbrev Truth (P T : Type) := Txid → Option (T × P)

/-- nothing is spent twice, and what is spent is there -/
structure Truth.Sound (f : Truth P T) : Prop where
  ids : ∀ x e, f x = some e → (asTx e.1).txid = x
  no_double_spend : ∀ x y a b op, f x = some a → f y = some b → op ∈ (asTx a.1).input → op ∈ (asTx b.1).input →
    op.isNull = false → x = y
  parents : ∀ x e op, f x = some e → op ∈ (asTx e.1).input → op.isNull = false → ∃ e', f op.txid = some e'

/-- output `op` is spent, by transaction `y` -/
def SpentIn (f : Truth P T) (op : OutPoint) (y : Txid) : Prop := ∃ e, f y = some e ∧ op ∈ (asTx e.1).input ∧ op.isNull = false

/-- the output `op` exists: it is `x`, of a transaction at position `p` -/
def OutputIn (f : Truth P T) (op : OutPoint) (x : TxOut) (p : P) : Prop :=
  ∃ y, f op.txid = some (y, p) ∧ (asTx y).output[op.vout.val]? = some x

/-- one moment of the world: the best chain and the transactions of it and of the mempool -/
structure View (P T : Type) where
  tip : BlockId
  header : Nat → Option BlockHash
  find : Truth P T

/-- what holds of any single moment -/
structure View.Sound (v : View P T) : Prop where
  truth : v.find.Sound
  tip_header : v.header v.tip.height = some v.tip.hash
  headers : ∀ h, (∃ x, v.header h = some x) ↔ h ≤ v.tip.height
  small : v.tip.height < u32Max
  below : ∀ x y p h, v.find x = some (y, p) → ChainPosition.height p = .confirmed h → h ≤ v.tip.height

/-- the best chain continues the wallet's up to the fork: below a block they share, they share all blocks -/
def Linked (c : SparseChain P) (v : View P T) : Prop :=
  ∀ a b x y, a ≤ b → c.checkpointAt a = some x → c.checkpointAt b = some y → v.header b = some y.hash → v.header a = some x.hash

/-- what the wallet has as confirmed is right, but for what is in or above a block that is not in the best chain any more -/
def Truthful (c : SparseChain P) (v : View P T) : Prop :=
  ∀ x p k, c.txPosition x = some p → ChainPosition.height p = .confirmed k →
    (∀ h b, h ≤ k → c.checkpointAt h = some b → v.header h = some b.hash) → ∃ y, v.find x = some (y, p)

/-- an index far from the limits of `u32` -/
def Room (s : KeychainIndex K D) : Prop := ∀ k, numRevealed s k ≤ 2 ^ 31 ∧ s.lookaheadOf k ≤ 2 ^ 30

/-- a wallet that knows nothing wrong about the world, but for blocks that have left the best chain, what was in and above them, and
unconfirmed transactions -/
structure Ready [DecidableEq D] (t : Tracker K D P T) (v : View P T) : Prop where
  reachable : t.Reachable
  derivable : AllDerivable t.txoutIndex
  distinct : NoCollision t.txoutIndex
  room : Room t.txoutIndex
  heights : HeightsOk t.chainGraph.chain
  below : ∀ h, HasCp t.chainGraph.chain h → h ≤ v.tip.height
  linked : Linked t.chainGraph.chain v
  truthful : Truthful t.chainGraph.chain v

/-- a wallet whose blocks are all in the best chain (which makes what it has as confirmed right) -/
structure Synced [DecidableEq D] (t : Tracker K D P T) (v : View P T) : Prop where
  ready : Ready t v
  headers : ∀ h b, t.chainGraph.chain.checkpointAt h = some b → v.header h = some b.hash

/-- two moments of one world: a block's hash determines the blocks before it and the transactions in it -/
structure Kin (v v' : View P T) : Prop where
  history : ∀ a b x, a ≤ b → v.header b = some x → v'.header b = some x → v'.header a = v.header a
  txs : ∀ x y p k h, v.find x = some (y, p) → ChainPosition.height p = .confirmed k → v.header k = some h → v'.header k = some h →
    v'.find x = some (y, p)

/-- for every transaction the wallet has as confirmed in a block that has left the best chain, one of the wallet's own blocks, no
higher than it, has left too -/
def Covered (c : SparseChain P) (v v' : View P T) : Prop :=
  ∀ x p k, c.txPosition x = some p → ChainPosition.height p = .confirmed k → v'.header k ≠ v.header k →
    ∃ h b, h ≤ k ∧ c.checkpointAt h = some b ∧ v'.header h ≠ some b.hash

/-- the calls of the owner between two commands: addresses (`revealed`, `reserved`, `used`, `unused`), and a transaction that was
sent -/
def Local : Tracker.Op K P T → Prop
  | .revealNextSpk _ | .revealAndReserveNextSpk _ | .nextUnusedSpk _ | .reserveNextUnusedSpk _ | .markUsed _ _ | .unmarkUsed _ _ => True
  | .insertTx _ pos _ => ChainPosition.height pos = .unconfirmed
  | _ => False

/-- the world as the esplora server sees it -/
def viewOf (w : Esplora.World T) : View ConfirmationTime T where
  tip := w.tip
  header := w.header
  find x := (w.find x).map fun e => (e.1, Esplora.positionOf e.2)

/-- the server's index is complete: a script's list has the transactions that pay to it and those that spend such an output (which
includes that no script has more than 50 transactions in the mempool: the server lists no more); `spender` knows who spends -/
structure Indexed (w : Esplora.World T) : Prop where
  pays : ∀ x e o, w.find x = some e → o ∈ (asTx e.1).output → e ∈ w.history o.spk
  spends : ∀ x e op e' o, w.find x = some e → op ∈ (asTx e.1).input → op.isNull = false → w.find op.txid = some e' →
    (asTx e'.1).output[op.vout.val]? = some o → e ∈ w.history o.spk
  spender : ∀ (op : OutPoint) y, w.spender op.txid op.vout.val = some y ↔ SpentIn (viewOf w).find op y
  parents : ∀ x e op, w.find x = some e → op ∈ (asTx e.1).input → op.isNull = false → ∃ e', w.find op.txid = some e'

/-- script `i` of keychain `k` is asked for by `Scan` -/
def Asked (t : Tracker K D P T) (w : Esplora.World T) (gap par : Nat) (k : K) (i : Nat) (spk : Script) : Prop :=
  ∃ l, (spksOfAllKeychains t.txoutIndex).get k = some l ∧ Esplora.Reached w gap par l i ∧ l[i]? = some (i, spk)

/-- script `i` of keychain `k` is asked for by `Sync` -/
def SyncAsked (t : Tracker K D P T) (f : Flags) (k : K) (i : Nat) (spk : Script) : Prop :=
  stored t.txoutIndex k i = some spk ∧ (f.allSpks = true ∨ (f.unusedSpks = true ∧ t.txoutIndex.inner.isUsed (toLex (k, i)) = false))

/-- the world `w` at a later moment than `v`, as the wallet needs it: the server is not behind the wallet's blocks, and blocks that
left the best chain are covered -/
structure Later (t : Tracker K D ConfirmationTime T) (v : View ConfirmationTime T) (w : Esplora.World T) : Prop where
  sound : w.Sound
  indexed : Indexed w
  kin : Kin v (viewOf w)
  below : ∀ h, HasCp t.chainGraph.chain h → h ≤ w.tip.height
  covered : Covered t.chainGraph.chain v (viewOf w)

/-- the life of a wallet: it starts without blocks and transactions; between commands its owner asks for addresses and sends
transactions; every command meets an honest server that shows a later moment of the same world.  `v` is the moment of the last
command. -/
inductive Life [DecidableEq D] : Tracker K D ConfirmationTime T → View ConfirmationTime T → Prop where
  | new {t v} : t.Reachable → AllDerivable t.txoutIndex → NoCollision t.txoutIndex → Room t.txoutIndex →
      (∀ h, t.chainGraph.chain.checkpointAt h = none) → (∀ x, t.chainGraph.chain.txPosition x = none) → v.Sound → Life t v
  | owner {t v} (op : Tracker.Op K ConfirmationTime T) (r) : Life t v → Local op → t.step op = some r → Life r.1 v
  | scan {t v} (s : Esplora.Server T) (w) (o o' : Orders ConfirmationTime T) (gap par fuel n time : Nat) (t' r) : Life t v → s.Shows w →
      Later t v w → (∀ spk, (w.confirmed spk).length ≤ fuel) → esploraScan s o o' t gap par fuel (n + 1) time = .ok (t', r) →
      Life t' (viewOf w)
  | sync {t v} (s : Esplora.Server T) (w) (o o' : Orders ConfirmationTime T) (so : SpendOrder) (f : Flags) (par fuel n time : Nat) (t' r) :
      Life t v → s.Shows w → Later t v w → (∀ spk, (w.confirmed spk).length ≤ fuel) →
      (∀ l, syncSpks t f.resolve = some l → l.length ≤ u64Max) →
      esploraSync s o o' so t f par fuel (n + 1) time = .ok (t', r) → Life t' (viewOf w)

/-- transaction `x` of wallet `t` is overruled in `t'`: `t'` has a transaction that `t` did not have, and that spends an output which `x`
spends, or which an ancestor of `x` (in the wallet) spends -/
def Overruled (t t' : Tracker K D P T) (x : Txid) : Prop :=
  ∃ z y, ¬ InChain t.chainGraph.chain z ∧ InChain t'.chainGraph.chain z ∧ t'.chainGraph.graph.getTx z = some y ∧
    ChainConflict t.chainGraph.chain t.chainGraph.graph (asTx y) x

end Verif.Sync
