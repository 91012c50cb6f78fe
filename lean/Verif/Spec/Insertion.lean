import Verif.Model.ChainGraph
import Verif.Spec.SparseChain

/-!
# Specification vocabulary for inserting things one at a time (C75)

A caller that has some blocks and some positioned transactions inserts them one by one and stops at the first refusal.
-/

namespace Verif.Spec
open Verif Verif.SparseChain
variable {P : Type} [LinearOrder P] [ChainPosition P]

/-- something to insert into a chain: a transaction id at a position, or a block -/
inductive Entry (P : Type) where
  | tx (t : Txid) (p : P)
  | block (b : BlockId)
deriving DecidableEq

/-- one insertion (sparse_chain.rs:680-684 `insert_tx`, :725-732 `insert_checkpoint`): the chain after it, or `none` when
the call is refused -/
def insertOne (c : SparseChain P) (e : Entry P) (ho : HashOrder (Txid × P)) : Option (SparseChain P) :=
  match e with
  | .tx t p => match c.insertTx t p ho with
    | (c', .ok _) => some c'
    | _ => none
  | .block b => match c.insertCheckpoint b ho with
    | (c', .ok _) => some c'
    | _ => none

/-- all of `l`, in that order, each call with its own hash order -/
def insertAll (c : SparseChain P) : List (Entry P × HashOrder (Txid × P)) → Option (SparseChain P)
  | [] => some c
  | e :: l => (insertOne c e.1 e.2).bind (fun c' => insertAll c' l)

/-- `e` is among the things inserted -/
def Inserts (l : List (Entry P × HashOrder (Txid × P))) (e : Entry P) : Prop := ∃ ho, (e, ho) ∈ l

/-- the things inserted do not contradict each other: one block per height, one position per transaction -/
def Coherent (l : List (Entry P × HashOrder (Txid × P))) : Prop :=
  (∀ b b', Inserts l (.block b) → Inserts l (.block b') → b.height = b'.height → b = b') ∧
  (∀ t p p', Inserts l (.tx t p) → Inserts l (.tx t p') → p = p')

/-- no height is `u32::MAX` -/
def EntriesOk (l : List (Entry P × HashOrder (Txid × P))) : Prop :=
  (∀ b, Inserts l (.block b) → b.height < u32Max) ∧
  (∀ t p h, Inserts l (.tx t p) → ChainPosition.height p = .confirmed h → h < u32Max)

/-- what has to be the case for some order of insertion to work: no block contradicts the tip, unless a higher block comes
with it; every confirmed transaction has a block at or above it; and no transaction is confirmed elsewhere already -/
def Acceptable (c : SparseChain P) (l : List (Entry P × HashOrder (Txid × P))) : Prop :=
  (∀ b x, Inserts l (.block b) → IsTip c b.height → c.checkpointAt b.height = some x → x ≠ b →
    ∃ b', Inserts l (.block b') ∧ b.height < b'.height) ∧
  (∀ t p h, Inserts l (.tx t p) → ChainPosition.height p = .confirmed h →
    (∃ k, HasCp c k ∧ h ≤ k) ∨ ∃ b, Inserts l (.block b) ∧ h ≤ b.height) ∧
  (∀ t p q h, Inserts l (.tx t p) → c.txPosition t = some q → ChainPosition.height q = .confirmed h → q = p)

/-- the recommended order between two entries: blocks before transactions, higher blocks before lower ones -/
def MayPrecede : Entry P → Entry P → Prop
  | .tx _ _, .block _ => False
  | .block b, .block b' => b'.height ≤ b.height
  | _, _ => True

/-- blocks from the highest down, then the transactions in any order -/
def BlocksFirst (l : List (Entry P × HashOrder (Txid × P))) : Prop :=
  l.Pairwise (fun e e' => MayPrecede e.1 e'.1)

end Verif.Spec

namespace Verif.Spec
open Verif Verif.SparseChain
variable {P T : Type} [LinearOrder P] [ChainPosition P] [AsTransaction T] [LinearOrder T]

/-- something to insert into a chain graph: a full transaction at a position, or a block -/
inductive CGEntry (P T : Type) where
  | tx (t : T) (p : P)
  | block (b : BlockId)

/-- one insertion (chain_graph.rs:212-216 `insert_tx`, :257-264 `insert_checkpoint`): the chain graph after it, or `none` when
the call is refused -/
def cgInsertOne (cg : ChainGraph P T) (e : CGEntry P T) (o : Orders P T) : Option (ChainGraph P T) :=
  match e with
  | .tx t p => match cg.insertTx t p o with
    | (cg', .ok _) => some cg'
    | _ => none
  | .block b => match cg.insertCheckpoint b o with
    | (cg', .ok _) => some cg'
    | _ => none

/-- all of `l`, in that order -/
def cgInsertAll (cg : ChainGraph P T) : List (CGEntry P T × Orders P T) → Option (ChainGraph P T)
  | [] => some cg
  | e :: l => (cgInsertOne cg e.1 e.2).bind (fun cg' => cgInsertAll cg' l)

/-- what an entry is for the chain alone -/
def CGEntry.entry : CGEntry P T → Entry P
  | .tx t p => .tx (asTx t).txid p
  | .block b => .block b

/-- what the insertions are for the chain alone -/
def onChain (l : List (CGEntry P T × Orders P T)) : List (Entry P × HashOrder (Txid × P)) :=
  l.map (fun e => (e.1.entry, e.2.chain))

/-- the transaction is among the things inserted -/
def InsertsTx (l : List (CGEntry P T × Orders P T)) (t : T) : Prop := ∃ p o, (CGEntry.tx t p, o) ∈ l

/-- no two of the inserted transactions and those of the chain spend the same output -/
def NoSharedSpend (cg : ChainGraph P T) (l : List (CGEntry P T × Orders P T)) : Prop :=
  (∀ t t' op, InsertsTx l t → InsertsTx l t' → op ∈ (asTx t).input → op ∈ (asTx t').input → op.isNull = false →
    (asTx t).txid = (asTx t').txid) ∧
  (∀ t c y op, InsertsTx l t → cg.chain.txPosition c ≠ none → cg.graph.getTx c = some y → op ∈ (asTx t).input →
    op ∈ (asTx y).input → op.isNull = false → (asTx t).txid = c)

/-- every transaction is inserted in one version -/
def OneVersion (l : List (CGEntry P T × Orders P T)) : Prop :=
  ∀ t t', InsertsTx l t → InsertsTx l t' → (asTx t).txid = (asTx t').txid → t = t'

end Verif.Spec
