import Verif.Model.Tracker

/-!
# Model of the esplora scan (bdk_esplora/src/lib.rs)

The server is an oracle.  Its answer to a request may depend on the number of requests (or batches of requests) made
before.  The requests of one batch are made by concurrent threads, so that their order is not fixed: their answers are
functions of the batch, the thread and the number of requests the thread has made, which covers every interleaving.  `none`
answers are errors of the client library.  Loops that a server can keep running for ever (paging, scanning again) take a
number of allowed rounds; running out of them is the outcome `pending`.  `T` is the type of transactions.
-/

namespace Verif.Esplora
open Verif

/-- `esplora_client::TxStatus`, the fields the code reads (`block_hash` is never read) -/
structure Status where
  confirmed : Bool
  blockHeight : Option Nat
  blockTime : Option (Fin (2 ^ 64))
deriving DecidableEq

/-- `esplora_client::Tx`: the txid the server gives, the transaction of `to_tx()`, the status -/
structure ETx (T : Type) where
  txid : Txid
  tx : T
  status : Status

/-- `esplora_client::OutputStatus`, the fields the code reads -/
structure OutStatus where
  txid : Option Txid
  status : Option Status

/-- The requests of `esplora_client::BlockingClient` the code uses.  First argument: the time.  `txs` further takes the number
of the thread in the batch, the number of the request in the thread, the script and the txid to continue after. -/
structure Server (T : Type) where
  blockHash : Nat → Nat → Option BlockHash
  height : Nat → Option Nat
  tipHash : Nat → Option BlockHash
  txs : Nat → Nat → Nat → Script → Option Txid → Option (List (ETx T))
  tx : Nat → Txid → Option (Option T)
  status : Nat → Txid → Option (Option Status)
  outputStatus : Nat → Txid → Nat → Option (Option OutStatus)

/-- outcome: `Ok`, `Err`, a panic, or more rounds of an unbounded loop needed than allowed -/
inductive Out (α : Type) where
  | ok (a : α)
  | error
  | panic
  | pending
deriving DecidableEq, Repr

variable {T : Type} [LinearOrder T] [AsTransaction T]

abbrev Update (T : Type) := ChainGraph ConfirmationTime T

/-- lib.rs:296-303 `map_confirmation_time` -/
def mapConfirmationTime (st : Status) (heightAtStart : Nat) : ConfirmationTime :=
  match st.blockTime, st.blockHeight with
  | some time, some height => if height ≤ heightAtStart then .confirmed height time else .unconfirmed
  | _, _ => .unconfirmed

/-- lib.rs:93-104, the loop over the local checkpoints from the highest down; the time is returned -/
def checkpointLoop (s : Server T) (o : Orders ConfirmationTime T) :
    List (Nat × BlockHash) → Update T → Nat → Out (Update T × Nat)
  | [], u, t => .ok (u, t)
  | (h, original) :: l, u, t =>
    match s.blockHash t h with
    | none => .error
    | some hash =>
      match u.insertCheckpoint ⟨h, hash⟩ o with
      | (u', .ok _) => if hash = original then .ok (u', t + 1) else checkpointLoop s o l u' (t + 1)
      | (_, .err _) => .panic
      | (_, .panic) => .panic

/-- lib.rs:147-158, the paging loop of a thread -/
def pageLoop (s : Server T) (t i : Nat) (spk : Script) : Nat → Nat → List (ETx T) → Out (List (ETx T))
  | 0, _, _ => .pending
  | n + 1, page, acc =>
    match acc.getLast? with
    | none => .panic
    | some last =>
      match s.txs t i page spk (some last.txid) with
      | none => .error
      | some new => if new.length < 25 then .ok (acc ++ new) else pageLoop s t i spk n (page + 1) (acc ++ new)

/-- lib.rs:139-162, what a thread returns -/
def relatedTxs (s : Server T) (fuel t i : Nat) (spk : Script) : Out (List (ETx T)) :=
  match s.txs t i 0 spk none with
  | none => .error
  | some l => if 25 ≤ (l.filter (fun e => e.status.confirmed)).length then pageLoop s t i spk fuel 1 l else .ok l

/-- lib.rs:181-194 (also 216-227 and 251-262): `insert_tx` and what is done with its errors -/
def putTx (o : Orders ConfirmationTime T) (u : Update T) (tx : T) (p : ConfirmationTime) : Out (Update T) :=
  match u.insertTx tx p o with
  | (u', .ok _) => .ok u'
  | (_, .err (.chain (.txTooHigh _ _ _))) => .panic
  | (u', .err (.chain (.txMovedUnexpectedly _ _ _))) => .ok u'
  | (u', .err (.unresolvableConflict _)) => .ok u'
  | (_, .panic) => .panic

/-- lib.rs:177-195 (also 248-263): the transactions with their statuses, in order -/
def putAll (o : Orders ConfirmationTime T) (tip : Nat) : List (T × Status) → Update T → Out (Update T)
  | [], u => .ok u
  | (tx, st) :: l, u =>
    match putTx o u tx (mapConfirmationTime st tip) with
    | .ok u' => putAll o tip l u'
    | .error => .error
    | .panic => .panic
    | .pending => .pending

/-- the local variables of the scan of one keychain -/
structure KState (T : Type) where
  update : Update T
  lastActive : Option Nat
  empty : Nat

/-- lib.rs:169-196, the `for` over the handles of a batch: script index and outcome of the thread -/
def handleLoop (o : Orders ConfirmationTime T) (tip : Nat) : List (Nat × Out (List (ETx T))) → KState T → Out (KState T)
  | [], st => .ok st
  | (index, .ok related) :: l, st =>
    let st' : KState T := if related.isEmpty then { st with empty := st.empty + 1 }
      else { st with lastActive := some index, empty := 0 }
    match putAll o tip (related.map fun e => (e.tx, e.status)) st'.update with
    | .ok u => handleLoop o tip l { st' with update := u }
    | .error => .error
    | .panic => .panic
    | .pending => .pending
  | (_, .error) :: _, _ => .error
  | (_, .panic) :: _, _ => .panic
  | (_, .pending) :: _, _ => .pending

/-- lib.rs:132-165: the threads of one batch -/
def batch (s : Server T) (fuel t : Nat) (spks : List (Nat × Script)) : List (Nat × Out (List (ETx T))) :=
  spks.zipIdx.map fun e => (e.1.1, relatedTxs s fuel t e.2 e.1.2)

/-- lib.rs:131-201, the `loop` over batches.  The first argument is larger than the number of scripts left, so it never
runs out.  Returns the time as well. -/
def batchLoop (s : Server T) (o : Orders ConfirmationTime T) (tip stopGap par fuel : Nat) :
    Nat → List (Nat × Script) → KState T → Nat → Out (KState T × Nat)
  | 0, _, _, _ => .pending
  | n + 1, spks, st, t =>
    match handleLoop o tip (batch s fuel t (spks.take par)) st with
    | .ok st' =>
      if (spks.take par).length = 0 ∨ stopGap ≤ st'.empty then .ok (st', t + 1)
      else batchLoop s o tip stopGap par fuel n (spks.drop par) st' (t + 1)
    | .error => .error
    | .panic => .panic
    | .pending => .pending

variable {K : Type} [LinearOrder K]

/-- lib.rs:126-206, the `for` over the keychains -/
def keychainLoop (s : Server T) (o : Orders ConfirmationTime T) (tip stopGap par fuel : Nat) :
    List (K × List (Nat × Script)) → Update T → OMap K Nat → Nat → Out ((Update T × OMap K Nat) × Nat)
  | [], u, la, t => .ok ((u, la), t)
  | (k, spks) :: l, u, la, t =>
    match batchLoop s o tip stopGap par fuel (spks.length + 1) spks ⟨u, none, 0⟩ t with
    | .ok (st, t') =>
      let la' := match st.lastActive with | some i => la.insert k i | none => la
      keychainLoop s o tip stopGap par fuel l st.update la' t'
    | .error => .error
    | .panic => .panic
    | .pending => .pending

/-- lib.rs:209-212 (also 232-233): transaction and status of a txid, two requests.  `error` is an error of the client,
`ok none` that the server does not know the transaction (or its status). -/
def lookup (s : Server T) (t : Nat) (txid : Txid) : Out (Option (T × Status)) :=
  match s.tx t txid with
  | none => .error
  | some tx =>
    match s.status (t + 1) txid with
    | none => .error
    | some st =>
      match tx, st with
      | some tx, some st => .ok (some (tx, st))
      | _, _ => .ok none

/-- lib.rs:208-228, the `for` over the txids -/
def txidLoop (s : Server T) (o : Orders ConfirmationTime T) (tip : Nat) : List Txid → Update T → Nat → Out (Update T × Nat)
  | [], u, t => .ok (u, t)
  | txid :: l, u, t =>
    match lookup s t txid with
    | .ok none => txidLoop s o tip l u (t + 2)
    | .ok (some e) =>
      match putAll o tip [e] u with
      | .ok u' => txidLoop s o tip l u' (t + 2)
      | .error => .error
      | .panic => .panic
      | .pending => .pending
    | .error => .error
    | .panic => .panic
    | .pending => .pending

/-- lib.rs:231-246: the transactions of an outpoint, and the time afterwards -/
def outpointTxs (s : Server T) (t : Nat) (op : OutPoint) : Out (List (T × Status) × Nat) :=
  match lookup s t op.txid with
  | .ok none => .ok ([], t + 2)
  | .ok (some e) =>
    match s.outputStatus (t + 2) op.txid op.vout.val with
    | none => .error
    | some (some ⟨some txid, some spendStatus⟩) =>
      match s.tx (t + 3) txid with
      | none => .error
      | some none => .ok ([e], t + 4)
      | some (some tx) => .ok ([e, (tx, spendStatus)], t + 4)
    | some _ => .ok ([e], t + 3)
  | .error => .error
  | .panic => .panic
  | .pending => .pending

/-- lib.rs:230-264, the `for` over the outpoints -/
def outpointLoop (s : Server T) (o : Orders ConfirmationTime T) (tip : Nat) :
    List OutPoint → Update T → Nat → Out (Update T × Nat)
  | [], u, t => .ok (u, t)
  | op :: l, u, t =>
    match outpointTxs s t op with
    | .ok (txs, t') =>
      match putAll o tip txs u with
      | .ok u' => outpointLoop s o tip l u' t'
      | .error => .error
      | .panic => .panic
      | .pending => .pending
    | .error => .error
    | .panic => .panic
    | .pending => .pending

/-- lib.rs:266-272: whether the highest checkpoint of the update has left the server's chain -/
def reorgOccurred (s : Server T) (u : Update T) (t : Nat) : Out (Bool × Nat) :=
  match u.chain.latestCheckpoint with
  | none => .ok (false, t)
  | some b =>
    match s.blockHash t b.height with
    | none => .error
    | some h => .ok (decide (h ≠ b.hash), t + 1)

/-- what one pass over `scan` (lib.rs:88-272) comes to: the recursive call of line 113, or the scan, whether a
reorganisation was noticed at the end, and the time -/
inductive Pass (K T : Type) [LinearOrder K] where
  | restart (t : Nat)
  | done (scan : KeychainScan K ConfirmationTime T) (reorg : Bool) (t : Nat)

/-- lib.rs:126-272: the part of a pass after the checkpoints -/
def collect (s : Server T) (o : Orders ConfirmationTime T) (ks : OMap K (List (Nat × Script))) (txids : List Txid)
    (ops : List OutPoint) (tip stopGap par fuel : Nat) (u : Update T) (t : Nat) : Out (Pass K T) :=
  match keychainLoop s o tip stopGap par fuel ks.entries u OMap.empty t with
  | .ok ((u, la), t) =>
    match txidLoop s o tip txids u t with
    | .ok (u, t) =>
      match outpointLoop s o tip ops u t with
      | .ok (u, t) =>
        match reorgOccurred s u t with
        | .ok (r, t) => .ok (.done ⟨u, la⟩ r t)
        | .error => .error
        | .panic => .panic
        | .pending => .pending
      | .error => .error
      | .panic => .panic
      | .pending => .pending
    | .error => .error
    | .panic => .panic
    | .pending => .pending
  | .error => .error
  | .panic => .panic
  | .pending => .pending

/-- lib.rs:88-272: one pass over `scan` -/
def pass (s : Server T) (o : Orders ConfirmationTime T) (localChain : OMap Nat BlockHash) (ks : OMap K (List (Nat × Script)))
    (txids : List Txid) (ops : List OutPoint) (stopGap par fuel t : Nat) : Out (Pass K T) :=
  match checkpointLoop s o localChain.entries.reverse ChainGraph.empty t with
  | .ok (u, t) =>
    match s.height t with
    | none => .error
    | some height =>
      match s.tipHash (t + 1) with
      | none => .error
      | some hash =>
        match u.insertCheckpoint ⟨height, hash⟩ o with
        | (u', .ok _) => collect s o ks txids ops height stopGap (max par 1) fuel u' (t + 2)
        | (_, .err _) => .ok (.restart (t + 2))
        | (_, .panic) => .panic
  | .error => .error
  | .panic => .panic
  | .pending => .pending

/-- lib.rs:79-293 `EsploraExt::scan`; the first argument bounds the number of passes (the recursion of line 113 and the one
of lines 274-290 by way of `scan_without_keychain`, lib.rs:51-75: a scan with the single keychain `()` without scripts; its
stop gap is `usize::MAX`) -/
def scan (s : Server T) (o : Orders ConfirmationTime T) (localChain : OMap Nat BlockHash) (par fuel : Nat) :
    Nat → ∀ (K : Type) [LinearOrder K], OMap K (List (Nat × Script)) → List Txid → List OutPoint → Nat → Nat →
    Out (KeychainScan K ConfirmationTime T)
  | 0, _, _, _, _, _, _, _ => .pending
  | n + 1, K, _, ks, txids, ops, stopGap, t =>
    match pass s o localChain ks txids ops stopGap par fuel t with
    | .ok (.restart t) => scan s o localChain par fuel n K ks txids ops stopGap t
    | .ok (.done sc false _) => .ok sc
    | .ok (.done sc true t) =>
      match scan s o localChain par fuel n Unit (OMap.ofList [((), [])]) (sc.update.chain.txids.map Prod.snd) [] u64Max t with
      | .ok r => .ok { sc with update := r.update }
      | .error => .error
      | .panic => .panic
      | .pending => .pending
    | .error => .error
    | .panic => .panic
    | .pending => .pending

/-- lib.rs:51-75 `scan_without_keychain` -/
def scanWithoutKeychain (s : Server T) (o : Orders ConfirmationTime T) (localChain : OMap Nat BlockHash) (spks : List Script)
    (txids : List Txid) (ops : List OutPoint) (par fuel rounds t : Nat) : Out (Update T) :=
  match scan s o localChain par fuel rounds Unit (OMap.ofList [((), spks.zipIdx.map (fun e => (e.2, e.1)))]) txids ops
      u64Max t with
  | .ok r => .ok r.update
  | .error => .error
  | .panic => .panic
  | .pending => .pending

end Verif.Esplora
