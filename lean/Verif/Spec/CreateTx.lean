import Verif.Spec.KeyDerive
import Verif.Spec.Cli
import Verif.Spec.ChainGraph
import Verif.Spec.CoinSelect
import Verif.Spec.Miniscript

/-!
# Vocabulary for created transactions
-/

namespace Verif.Cli.Spec
open Verif Verif.Planner
open Verif.CoinSelect.Spec (counterLen)
open Verif.Spec (InChain)

/-! ### weight (BIP141): three times the size without witnesses plus the size with them -/

/-- serialized size of an output: value, script length, script -/
def outputSize (scriptLen : Script → Nat) (o : TxOut) : Nat := 8 + (counterLen (scriptLen o.spk) + scriptLen o.spk)

/-- size without witnesses: version, inputs (outpoint, empty script, sequence), outputs, lock time -/
def strippedSize (scriptLen : Script → Nat) (t : BuiltTx) : Nat :=
  4 + (counterLen t.input.length + t.input.length * (36 + 1 + 4))
    + (counterLen t.output.length + (t.output.map (outputSize scriptLen)).sum) + 4

/-- size with witnesses: marker and flag, and a witness per input, if some input has one -/
def totalSize (scriptLen : Script → Nat) (t : BuiltTx) : Nat :=
  strippedSize scriptLen t +
    if ∃ i ∈ t.input, i.witness ≠ [] then 2 + (t.input.map fun i => Planner.Spec.witnessSize i.witness).sum else 0

def txWeight (scriptLen : Script → Nat) (t : BuiltTx) : Nat := 3 * strippedSize scriptLen t + totalSize scriptLen t

/-! ### values -/

variable {D Key Ak Sec XPrv Msg T P : Type} [LinearOrder P] [ChainPosition P] [LinearOrder T] [AsTransaction T]

/-- the value of the outputs that the inputs spend, as the graph of transactions knows them -/
def inputValue (t : Tracker Keychain D P T) (tx : BuiltTx) : Nat :=
  (tx.input.map fun i => ((t.chainGraph.graph.getTxout i.previousOutput).map TxOut.value).getD 0).sum

def outputValue (tx : BuiltTx) : Nat := (tx.output.map TxOut.value).sum

/-- the transaction without its witnesses -/
def unsigned (tx : BuiltTx) : BuiltTx := { tx with input := tx.input.map fun i => { i with witness := [] } }

/-- An unspent output of the wallet: the index has it under script number `i` of keychain `k`, its transaction is in the chain,
and no transaction of the chain spends it. -/
structure WalletCoin (t : Tracker Keychain D P T) (o : OutPoint) (k : Keychain) (i : Nat) (out : TxOut) : Prop where
  indexed : ∃ x, t.txoutIndex.inner.txout o = some (toLex (k, i), x)
  inChain : ∃ pos x, t.chainGraph.getTxInChain o.txid = some (some (pos, x)) ∧ (asTx x).output[o.vout.val]? = some out
  unspent : ¬ ∃ s y, InChain t.chainGraph.chain s ∧ t.chainGraph.graph.getTx s = some y ∧ o ∈ (asTx y).input ∧ o.isNull = false

/-- every way to satisfy the expression needs a signature -/
def NeedsSig {Key : Type} : Ms Key → Prop
  | .pkK _ | .pkH _ => True
  | .alt x | .swap x | .check x | .dupIf x | .verify x | .nonZero x | .zeroNotEqual x => NeedsSig x
  | .andV x y | .andB x y => NeedsSig x ∨ NeedsSig y
  | .orI x y => NeedsSig x ∧ NeedsSig y
  | _ => False

/-- Signatures are 64 bytes and public keys 33, and no leaf has a `pk_h` (whose weight is misjudged, see
`C53_pkh_underestimated`). -/
structure PlainKeys (env : Env D Key Ak Sec XPrv Msg T) : Prop where
  pub : ∀ k, (env.lib.pubkeyBytes k).length = 33
  noPkH : ∀ d i, ∀ l ∈ (env.trAt d i).leaves, Planner.Spec.NoPkH l.2
  sig : ∀ tx i po sec msg, ((env.crypto tx i po).sign sec msg).length = 64
  tweaked : ∀ tx i po sec root msg, ((env.crypto tx i po).signTweaked sec root msg).length = 64

/-- Everything needed to sign is there: the secret of every asset key, the signature hashes of the inputs, the control blocks;
the leaves of the descriptors are made of supported fragments and need signatures. -/
structure CanSign (env : Env D Key Ak Sec XPrv Msg T) : Prop where
  keys : ∀ ak ∈ env.assetKeys, ∃ s, env.keymap ak = some s ∧ ∀ tx i po hint, (Planner.Spec.secretFor (env.crypto tx i po) s hint).isSome
  keyHash : ∀ (tx : BuiltTx) i po, i < tx.input.length → po.length = tx.input.length → (env.crypto tx i po).keySpendHash.isSome
  scriptHash : ∀ (tx : BuiltTx) i po leaf, i < tx.input.length → po.length = tx.input.length →
    ((env.crypto tx i po).scriptSpendHash leaf).isSome
  leaves : ∀ d i, ∀ l ∈ (env.trAt d i).leaves, Planner.Spec.Supported l.2 ∧ NeedsSig l.2 ∧
    (env.lib.controlBlock (env.trAt d i) (env.lib.encode l.2)).isSome

/-- The script interpreter accepts the signatures that the wallet makes over `msg` with the secrets of its key map: the one
derived for a key of the descriptor is a 64 byte signature of that key. -/
def Honest (env : Env D Key Ak Sec XPrv Msg T) (xonly : Key → Planner.Bytes) (cr : Crypto Sec XPrv Msg) (msg : Msg) (ctx : Tapscript.Ctx) : Prop :=
  ∀ ak key hint s sec, env.canDerive ak key = some hint → env.keymap ak = some s → Planner.Spec.secretFor cr s hint = some sec →
    (cr.sign sec msg).length = 64 ∧ ctx.sigOk (xonly key) (cr.sign sec msg) = true

end Verif.Cli.Spec
