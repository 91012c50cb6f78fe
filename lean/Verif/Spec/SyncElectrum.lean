import Verif.Model.SyncElectrum
import Verif.Spec.Sync
import Verif.Spec.Electrum

/-!
# Specification vocabulary for the commands of the electrum example
-/

namespace Verif.Sync
open Verif Spec
variable {K D T : Type} [LinearOrder K] [DescriptorOps D] [LinearOrder T] [AsTransaction T]

/-- the electrum server's answers `w` show the moment `v`: it knows its transactions and no others; a script's history has the
transactions that pay to it and those that spend such an output, and lists only transactions it knows, with their height (0 or
-1 when unconfirmed), the same in every history.  Transactions have outputs, and none has the all-zero id. -/
structure Mirrors (w : Electrum.World) (v : View TxHeight T) : Prop where
  tip : w.tip = v.tip
  header : ∀ h, w.header h = v.header h
  tx : ∀ x, w.tx x = (v.find x).map (fun e => asTx e.1)
  height : ∀ spk x raw, (x, raw) ∈ w.history spk → ∃ y p, v.find x = some (y, p) ∧ Electrum.IsHeightOf raw v.tip.height x p
  one_height : ∀ k k' x a b, (x, a) ∈ w.history k → (x, b) ∈ w.history k' → a = b
  pays : ∀ x e o, v.find x = some e → o ∈ (asTx e.1).output → ∃ raw, (x, raw) ∈ w.history o.spk
  spends : ∀ x e op e' o, v.find x = some e → op ∈ (asTx e.1).input → op.isNull = false → v.find op.txid = some e' →
    (asTx e'.1).output[op.vout.val]? = some o → ∃ raw, (x, raw) ∈ w.history o.spk
  outputs : ∀ x e, v.find x = some e → (asTx e.1).output ≠ []
  no_null : v.find 0 = none

/-- the server shows `v` all along, and answers `batch_transaction_get` with the transactions it knows -/
structure ShowsView (s : Electrum.Server) (get : Txid → Option T) (w : Electrum.World) (v : View TxHeight T) : Prop where
  sound : v.Sound
  mirrors : Mirrors w v
  shows_ : s.Shows w
  get : ∀ x, (get x).map asTx = w.tx x

/-- script `i` of keychain `k` is asked for by `Scan` -/
def ScanAsked (t : Tracker K D TxHeight T) (w : Electrum.World) (gap : Nat) (k : K) (i : Nat) (spk : Script) : Prop :=
  ∃ l, (spksOfAllKeychains t.txoutIndex).get k = some l ∧ Electrum.Reached w gap l i ∧ l[i]? = some (i, spk)

/-- the server knows the transactions of all outputs the wallet shows as unspent -/
def UtxosKnown (t : Tracker K D TxHeight T) (so : SpendOrder) (v : View TxHeight T) : Prop :=
  ∀ e ∈ t.fullUtxos so, ∃ e', v.find e.2.outpoint.txid = some e'

/-- the moment `v'` comes later than `v`, as the wallet needs it: the server is not behind the wallet's blocks, and blocks that
left the best chain are covered -/
structure Follows (t : Tracker K D TxHeight T) (v v' : View TxHeight T) : Prop where
  kin : Kin v v'
  below : ∀ h, HasCp t.chainGraph.chain h → h ≤ v'.tip.height
  covered : Covered t.chainGraph.chain v v'

/-- the life of a wallet of the electrum example: it starts without blocks and transactions; between commands its owner asks for
addresses and sends transactions; every command meets an honest server that shows a later moment of the same world.  `v` is the
moment of the last command. -/
inductive ELife [DecidableEq D] : Tracker K D TxHeight T → View TxHeight T → Prop where
  | new {t v} : t.Reachable → AllDerivable t.txoutIndex → NoCollision t.txoutIndex → Room t.txoutIndex →
      (∀ h, t.chainGraph.chain.checkpointAt h = none) → (∀ x, t.chainGraph.chain.txPosition x = none) → v.Sound → ELife t v
  | owner {t v} (op : Tracker.Op K TxHeight T) (r) : ELife t v → Local op → t.step op = some r → ELife r.1 v
  | scan {t v} (s get w v') (ho : Electrum.Order) (so : SpendOrder) (o : Orders TxHeight T) (gap bs n time : Nat) (t' r) : ELife t v →
      ShowsView s get w v' → Follows t v v' → 0 < bs → electrumScan s get ho so o t gap bs (n + 1) time = .ok (t', r) → ELife t' v'
  | sync {t v} (s get w v') (ho : Electrum.Order) (so so' : SpendOrder) (o : Orders TxHeight T) (f : Flags) (bs n time : Nat) (t' r) :
      ELife t v → ShowsView s get w v' → Follows t v v' → 0 < bs →
      (∀ l, syncSpks t f.resolve = some l → l.length ≤ u64Max) →
      electrumSync s get ho so so' o t f bs (n + 1) time = .ok (t', r) → ELife t' v'

end Verif.Sync
