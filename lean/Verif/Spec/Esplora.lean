import Verif.Model.Esplora
import Verif.Spec.ChainGraph

/-!
# Specification vocabulary for the esplora scan
-/

namespace Verif.Esplora
open Verif Spec
variable {T : Type} [LinearOrder T] [AsTransaction T]

/-- how a reported status is read, relative to the height of the tip: confirmed iff it names a block not above the tip
and the time of the block -/
def IsPositionOf (st : Status) (tip : Nat) (p : ConfirmationTime) : Prop :=
  (∃ h time, st.blockHeight = some h ∧ st.blockTime = some time ∧ h ≤ tip ∧ p = .confirmed h time) ∨
  ((¬ ∃ h time, st.blockHeight = some h ∧ st.blockTime = some time ∧ h ≤ tip) ∧ p = .unconfirmed)

/-- at time `t` the server gave transaction `tx` with status `st`: in an answer about a script, about a txid, or about who
spends an outpoint -/
def Gives (s : Server T) (t : Nat) (tx : T) (st : Status) : Prop :=
  (∃ i page spk after l x, s.txs t i page spk after = some l ∧ (⟨x, tx, st⟩ : ETx T) ∈ l) ∨
  (∃ x, s.tx t x = some (some tx) ∧ s.status (t + 1) x = some (some st)) ∨
  (∃ x v y, s.outputStatus t x v = some (some ⟨some y, some st⟩) ∧ s.tx (t + 1) y = some (some tx))

/-- where a transaction is: in the mempool, or in a block of some height and time -/
abbrev Place := Option (Nat × Fin (2 ^ 64))

/-- the status an honest server reports -/
def statusOf : Place → Status
  | none => ⟨false, none, none⟩
  | some (h, time) => ⟨true, some h, some time⟩

/-- the position the wallet should record -/
def positionOf : Place → ConfirmationTime
  | none => .unconfirmed
  | some (h, time) => .confirmed h time

/-- one state of the world as an esplora server sees it: the transactions of a script are listed newest first, `find` looks up
any transaction, `spender x v` is the transaction that spends output `v` of `x` -/
structure World (T : Type) where
  tip : BlockId
  header : Nat → Option BlockHash
  mempool : Script → List T
  confirmed : Script → List (T × Nat × Fin (2 ^ 64))
  find : Txid → Option (T × Place)
  spender : Txid → Nat → Option Txid

/-- the entry of a transaction in an answer -/
def entry (e : T × Place) : ETx T := ⟨(asTx e.1).txid, e.1, statusOf e.2⟩

/-- the confirmed transactions of a script, with their places -/
def World.settled (w : World T) (spk : Script) : List (T × Place) := (w.confirmed spk).map fun e => (e.1, some e.2)

/-- the transactions of a script a client can learn about: the 50 newest of the mempool, and all confirmed ones -/
def World.history (w : World T) (spk : Script) : List (T × Place) :=
  ((w.mempool spk).take 50).map (fun t => (t, none)) ++ w.settled spk

/-- what follows the transaction `x` in a list of confirmed transactions -/
def afterTx (x : Txid) : List (T × Place) → List (T × Place)
  | [] => []
  | e :: l => if (asTx e.1).txid = x then l else afterTx x l

/-- the server shows the world `w` at every request and never fails.  It lists at most 50 unconfirmed transactions and pages
the confirmed ones by 25. -/
structure Server.Shows (s : Server T) (w : World T) : Prop where
  blockHash : ∀ t h, s.blockHash t h = w.header h
  height : ∀ t, s.height t = some w.tip.height
  tipHash : ∀ t, s.tipHash t = some w.tip.hash
  first : ∀ t i page spk, s.txs t i page spk none =
    some ((((w.mempool spk).take 50).map (fun t => (t, none)) ++ (w.settled spk).take 25).map entry)
  next : ∀ t i page spk x, s.txs t i page spk (some x) = some (((afterTx x (w.settled spk)).take 25).map entry)
  tx : ∀ t x, s.tx t x = some ((w.find x).map Prod.fst)
  status : ∀ t x e, w.find x = some e → s.status t x = some (some (statusOf e.2))
  status_ok : ∀ t x, s.status t x ≠ none
  unspent : ∀ t x v, w.spender x v = none → s.outputStatus t x v = some none ∨ ∃ st, s.outputStatus t x v = some (some ⟨none, st⟩)
  spent : ∀ t x v y e, w.spender x v = some y → w.find y = some e →
    s.outputStatus t x v = some (some ⟨some y, some (statusOf e.2)⟩)

/-- an honest server whose world may change with time -/
def serverOf (ws : Nat → World T) : Server T where
  blockHash t h := (ws t).header h
  height t := some (ws t).tip.height
  tipHash t := some (ws t).tip.hash
  txs t _ _ spk after := match after with
    | none => some (((((ws t).mempool spk).take 50).map (fun t => (t, none)) ++ ((ws t).settled spk).take 25).map entry)
    | some x => some (((afterTx x ((ws t).settled spk)).take 25).map entry)
  tx t x := some (((ws t).find x).map Prod.fst)
  status t x := some (some (match (ws t).find x with | some e => statusOf e.2 | none => ⟨false, none, none⟩))
  outputStatus t x v := some (match (ws t).spender x v with
    | none => some ⟨none, none⟩
    | some y => match (ws t).find y with
      | some e => some ⟨some y, some (statusOf e.2)⟩
      | none => none)

/-- what holds of any single moment: headers up to the tip exactly; `find` agrees with the lists and knows the spenders; nothing
is confirmed above the tip; no two transactions of the chain and the mempool spend the same output -/
structure World.Sound (w : World T) : Prop where
  tip_header : w.header w.tip.height = some w.tip.hash
  headers : ∀ h, (∃ x, w.header h = some x) ↔ h ≤ w.tip.height
  small : w.tip.height < u32Max
  listed : ∀ spk e, e ∈ w.history spk → w.find (asTx e.1).txid = some e
  found : ∀ x e, w.find x = some e → (asTx e.1).txid = x
  below : ∀ x t h time, w.find x = some (t, some (h, time)) → h ≤ w.tip.height
  once : ∀ spk, ((w.confirmed spk).map fun e => (asTx e.1).txid).Nodup
  spender_found : ∀ x v y, w.spender x v = some y → ∃ e, w.find y = some e
  no_double_spend : ∀ x y a b op, w.find x = some a → w.find y = some b → op ∈ (asTx a.1).input → op ∈ (asTx b.1).input →
    op.isNull = false → x = y

/-- script `n` of the list is asked for: at no end of a batch of `par` scripts before it were the last `gap` scripts all
without transactions -/
def Reached {I : Type} (w : World T) (gap par : Nat) (l : List (I × Script)) (n : Nat) : Prop :=
  n < l.length ∧
  ¬ ∃ b, (b + 1) * par ≤ n ∧ gap ≤ (b + 1) * par ∧
    ∀ j, (b + 1) * par - gap ≤ j → j < (b + 1) * par → ∃ e, l[j]? = some e ∧ w.history e.2 = []

/-- `x` is among the transactions of a script that is asked for -/
def FoundByScript {K : Type} [LinearOrder K] (w : World T) (gap par : Nat) (m : OMap K (List (Nat × Script))) (x : Txid) : Prop :=
  ∃ k l n e t, m.get k = some l ∧ Reached w gap par l n ∧ l[n]? = some e ∧ t ∈ w.history e.2 ∧ (asTx t.1).txid = x

/-- `x` is a requested transaction that exists -/
def FoundByTxid (w : World T) (txids : List Txid) (x : Txid) : Prop := x ∈ txids ∧ ∃ e, w.find x = some e

/-- `x` contains or spends a requested outpoint -/
def FoundByOutpoint (w : World T) (ops : List OutPoint) (x : Txid) : Prop :=
  ∃ op ∈ ops, (∃ e, w.find op.txid = some e) ∧ (x = op.txid ∨ w.spender op.txid op.vout.val = some x)

/-- the server gives the answers of `s1` before time `n` and those of `s2` from then on -/
def switch (s1 s2 : Server T) (n : Nat) : Server T where
  blockHash t := if t < n then s1.blockHash t else s2.blockHash t
  height t := if t < n then s1.height t else s2.height t
  tipHash t := if t < n then s1.tipHash t else s2.tipHash t
  txs t := if t < n then s1.txs t else s2.txs t
  tx t := if t < n then s1.tx t else s2.tx t
  status t := if t < n then s1.status t else s2.status t
  outputStatus t := if t < n then s1.outputStatus t else s2.outputStatus t

end Verif.Esplora
