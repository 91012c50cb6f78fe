import Verif.Model.Electrum
import Verif.Spec.SparseChain

/-!
# Specification vocabulary for the electrum scan
-/

namespace Verif.Electrum
open Verif Spec

/-- one state of the world as an electrum server sees it -/
structure World where
  tip : BlockId
  header : Nat → Option BlockHash
  history : Script → List (Txid × Int)
  tx : Txid → Option Tx

/-- the server shows the world `w` at every request and never fails (unknown transactions are protocol errors) -/
def Server.Shows (s : Server) (w : World) : Prop :=
  (∀ t, s.tip t = some w.tip) ∧ (∀ t h, s.header t h = w.header h) ∧ (∀ t k, s.history t k = some (w.history k)) ∧
  (∀ t x, s.tx t x = match w.tx x with | some tx => .ok tx | none => .protocolErr)

/-- the server shows the world `w1` for the first `n` requests and `w2` afterwards (block times are all 0) -/
def twoWorlds (w1 w2 : World) (n : Nat) : Server where
  tip t := some (if t < n then w1 else w2).tip
  header t h := (if t < n then w1 else w2).header h
  headerTime _ _ := some 0
  history t k := some ((if t < n then w1 else w2).history k)
  tx t x := match (if t < n then w1 else w2).tx x with | some tx => .ok tx | none => .protocolErr

/-- what any honest server satisfies at one moment: it has exactly the headers up to its tip, and it reports one
height per transaction, whatever script it is asked about -/
structure World.Sound (w : World) : Prop where
  tip_header : w.header w.tip.height = some w.tip.hash
  headers : ∀ h, (∃ x, w.header h = some x) ↔ h ≤ w.tip.height
  small : w.tip.height < u32Max
  one_height : ∀ k k' x a b, (x, a) ∈ w.history k → (x, b) ∈ w.history k' → a = b

/-- script `n` of the list is scanned: no `gap + 1` consecutive scripts before it are all without transactions -/
def Reached {I : Type} (w : World) (gap : Nat) (l : List (I × Script)) (n : Nat) : Prop :=
  n < l.length ∧
  ¬ ∃ i, i + gap < n ∧ ∀ j, i ≤ j → j ≤ i + gap → ∃ e, l[j]? = some e ∧ w.history e.2 = []

/-- the electrum reading of a raw height: positive heights up to the tip are confirmations; the genesis coinbase,
which electrum reports with height 0, is confirmed in block 0 -/
def IsHeightOf (raw : Int) (tip : Nat) (x : Txid) (p : TxHeight) : Prop :=
  (x = genesisTxid ∧ p = .confirmed 0) ∨
  (x ≠ genesisTxid ∧ 0 < raw ∧ raw ≤ tip ∧ ∃ h : Nat, (h : Int) = raw ∧ p = .confirmed h) ∨
  (x ≠ genesisTxid ∧ ¬ (0 < raw ∧ raw ≤ tip) ∧ p = .unconfirmed)

/-- the wallet checkpoints handed to the scan are those of the chain `c` -/
def CheckpointsOf {P : Type} [LinearOrder P] (c : SparseChain P) (m : OMap Nat BlockHash) : Prop :=
  ∀ h, c.checkpointAt h = (m.get h).map (fun x => ⟨h, x⟩)

/-- transaction `x` is in the history of a scanned script of some keychain -/
def FoundByScript {K : Type} [LinearOrder K] (w : World) (gap : Nat) (m : OMap K (List (Nat × Script))) (x : Txid)
    (raw : Int) : Prop :=
  ∃ k l n e, m.get k = some l ∧ Reached w gap l n ∧ l[n]? = some e ∧ (x, raw) ∈ w.history e.2

/-- `x` is a requested txid the server knows, in the history of its first output -/
def FoundByTxid (w : World) (txids : List Txid) (x : Txid) (raw : Int) : Prop :=
  x ∈ txids ∧ ∃ tx o, w.tx x = some tx ∧ tx.output[0]? = some o ∧ (x, raw) ∈ w.history o.spk

/-- `x` contains or spends a requested outpoint and is in the history of its script -/
def FoundByOutpoint (w : World) (ops : List OutPoint) (x : Txid) (raw : Int) : Prop :=
  ∃ op ∈ ops, ∃ tx o, w.tx op.txid = some tx ∧ tx.output[op.vout.val]? = some o ∧ (x, raw) ∈ w.history o.spk ∧
    (x = op.txid ∨ ∃ tx', w.tx x = some tx' ∧ op ∈ tx'.input)

/-- the server knows the transactions it lists and the requested outpoints; transactions have outputs, and no two
listed transactions spend the same requested outpoint -/
structure World.Complete (w : World) (ops : List OutPoint) : Prop where
  listed : ∀ k x a, (x, a) ∈ w.history k → ∃ tx, w.tx x = some tx
  ops_known : ∀ op ∈ ops, ∃ tx, w.tx op.txid = some tx
  outputs : ∀ x tx, w.tx x = some tx → tx.output ≠ []
  no_double_spend : ∀ k, ∀ op ∈ ops, ∀ x y a b tx ty, (x, a) ∈ w.history k → (y, b) ∈ w.history k →
    w.tx x = some tx → w.tx y = some ty → op ∈ tx.input → op ∈ ty.input → x = y

end Verif.Electrum
