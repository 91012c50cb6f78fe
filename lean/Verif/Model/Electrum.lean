import Verif.Model.ChainGraph

/-!
# Model of the electrum scan (bdk_electrum/src/lib.rs)

The server is an oracle: the answer to a request may depend on the number of requests made before, so blocks and
transactions may arrive or disappear between any two requests.  `none` answers are errors of the client library.
Loops that a hostile or flapping server can keep running for ever take a number of allowed rounds; running out of
rounds is the outcome `pending`.
-/

namespace Verif.Electrum
open Verif

/-- answer to `transaction_get`: only `Error::Protocol` is told apart by the code (lib.rs:502-506) -/
inductive TxAnswer where
  | ok (tx : Tx)
  | protocolErr
  | otherErr

/-- The requests of `electrum_client` the code uses.  First argument: number of earlier requests.
`history` gives `tx_hash` and `height` of `GetHistoryRes`. -/
structure Server where
  tip : Nat → Option BlockId
  header : Nat → Nat → Option BlockHash
  headerTime : Nat → Nat → Option (Fin (2 ^ 64))
  history : Nat → Script → Option (List (Txid × Int))
  tx : Nat → Txid → TxAnswer

/-- outcome of a Rust function of this crate: `Ok`, `Err(InternalError::Reorg)`, `Err(ElectrumError)`, a panic,
or more rounds of an unbounded loop needed than allowed -/
inductive Out (α : Type) where
  | ok (a : α)
  | reorg
  | error
  | panic
  | pending
deriving DecidableEq, Repr

abbrev Update := SparseChain TxHeight
abbrev Order := HashOrder (Txid × TxHeight)

/-- lib.rs:386, the genesis coinbase txid (bytes in the order used by `Ord for Txid`) -/
def genesisTxid : Txid :=
  ⟨0x3ba3edfd7a7b12b27ac72c3e67768f617fc81bc3888a51323a9fb8aa4b1e5e4a, by decide⟩

/-- lib.rs:384-409 `determine_tx_height` (the `debug_assert!` on heights below -1 is left out: release build) -/
def determineTxHeight (raw : Int) (tipHeight : Nat) (txid : Txid) : TxHeight :=
  if txid = genesisTxid then .confirmed 0
  else if raw ≤ 0 then .unconfirmed
  else if tipHeight < raw.toNat then .unconfirmed
  else .confirmed raw.toNat

/-- lib.rs:345-360, the loop over the local checkpoints from the highest down -/
def prepareLoop (s : Server) (ho : Order) : List (Nat × BlockHash) → Update → Nat → Out Update × Nat
  | [], u, t => (.ok u, t)
  | (h, existing) :: l, u, t =>
    match s.header t h with
    | none => (.error, t + 1)
    | some current =>
      match u.insertCheckpoint ⟨h, current⟩ ho with
      | (u', .ok _) => if current = existing then (.ok u', t + 1) else prepareLoop s ho l u' (t + 1)
      | (_, .err _) => (.panic, t + 1)
      | (_, .panic) => (.panic, t + 1)

/-- lib.rs:338-377 `prepare_update`; the first argument bounds the depth of the recursion of line 371 -/
def prepareUpdate (s : Server) (ho : Order) (localChain : OMap Nat BlockHash) : Nat → Nat → Out Update × Nat
  | 0, t => (.pending, t)
  | n + 1, t =>
    match prepareLoop s ho localChain.entries.reverse SparseChain.empty t with
    | (.ok u, t) =>
      match s.tip t with
      | none => (.error, t + 1)
      | some tip =>
        match u.insertCheckpoint tip ho with
        | (u', .ok _) => (.ok u', t + 1)
        | (_, .err _) => prepareUpdate s ho localChain n (t + 1)
        | (_, .panic) => (.panic, t + 1)
    | (.reorg, t) => (.reorg, t)
    | (.error, t) => (.error, t)
    | (.panic, t) => (.panic, t)
    | (.pending, t) => (.pending, t)

/-- lib.rs:580-592 (also 472-481 and 518-527): `insert_tx` and what is done with its error -/
def putTx (ho : Order) (u : Update) (txid : Txid) (h : TxHeight) : Update × Out Unit :=
  match u.insertTx txid h ho with
  | (u', .ok _) => (u', .ok ())
  | (u', .err (.txTooHigh _ _ _)) => (u', .panic)
  | (u', .err (.txMovedUnexpectedly _ _ _)) => (u', .reorg)
  | (u', .panic) => (u', .panic)

/-- lib.rs:577-593: all transactions of one script -/
def putHistory (ho : Order) (tip : Nat) : List (Txid × Int) → Update → Update × Out Unit
  | [], u => (u, .ok ())
  | (txid, raw) :: l, u =>
    match putTx ho u txid (determineTxHeight raw tip txid) with
    | (u', .ok _) => putHistory ho tip l u'
    | r => r

/-- the local variables of `populate_with_spks` that survive an iteration -/
structure SpkState (I : Type) [LinearOrder I] where
  update : Update
  scanned : OMap I (Script × Bool)
  unused : Nat

variable {I : Type} [LinearOrder I]

/-- lib.rs:564-594, the `for` over one batch.  `ok true` is the `return Ok(scanned_spks)` of line 569. -/
def spkLoop (ho : Order) (tip stopGap : Nat) :
    List ((I × Script) × List (Txid × Int)) → SpkState I → SpkState I × Out Bool
  | [], st => (st, .ok false)
  | ((i, spk), hist) :: l, st =>
    match hist with
    | [] =>
      let st' : SpkState I := ⟨st.update, st.scanned.insert i (spk, false), st.unused + 1⟩
      if stopGap < st'.unused then (st', .ok true) else spkLoop ho tip stopGap l st'
    | e :: es =>
      match putHistory ho tip (e :: es) st.update with
      | (u, .ok _) => spkLoop ho tip stopGap l ⟨u, st.scanned.insert i (spk, true), 0⟩
      | (u, .reorg) => (⟨u, st.scanned.insert i (spk, true), 0⟩, .reorg)
      | (u, .error) => (⟨u, st.scanned.insert i (spk, true), 0⟩, .error)
      | (u, .panic) => (⟨u, st.scanned.insert i (spk, true), 0⟩, .panic)
      | (u, .pending) => (⟨u, st.scanned.insert i (spk, true), 0⟩, .pending)

/-- what a call of `populate_with_spks` leaves behind: the (mutated) update, the scanned scripts (returned only
with `ok`), what is left in the iterator, the outcome, the time -/
structure SpkResult (I : Type) [LinearOrder I] where
  update : Update
  scanned : OMap I (Script × Bool)
  rest : List (I × Script)
  out : Out Unit
  time : Nat

/-- lib.rs:554-595, the outer loop.  The first argument is at least the number of scripts left, so it never runs
out unless `batch_size` is 0, when the code returns at once (line 558) as well. -/
def populateLoop (s : Server) (ho : Order) (tip stopGap batchSize : Nat) :
    Nat → List (I × Script) → SpkState I → Nat → SpkResult I
  | 0, spks, st, t => ⟨st.update, st.scanned, spks, .ok (), t⟩
  | n + 1, spks, st, t =>
    if (spks.take batchSize).isEmpty then ⟨st.update, st.scanned, spks, .ok (), t⟩
    else
      match (spks.take batchSize).mapM (fun e => s.history t e.2) with
      | none => ⟨st.update, st.scanned, spks.drop batchSize, .error, t + 1⟩
      | some hists =>
        match spkLoop ho tip stopGap ((spks.take batchSize).zip hists) st with
        | (st', .ok true) => ⟨st'.update, st'.scanned, spks.drop batchSize, .ok (), t + 1⟩
        | (st', .ok false) => populateLoop s ho tip stopGap batchSize n (spks.drop batchSize) st' (t + 1)
        | (st', .reorg) => ⟨st'.update, st'.scanned, spks.drop batchSize, .reorg, t + 1⟩
        | (st', .error) => ⟨st'.update, st'.scanned, spks.drop batchSize, .error, t + 1⟩
        | (st', .panic) => ⟨st'.update, st'.scanned, spks.drop batchSize, .panic, t + 1⟩
        | (st', .pending) => ⟨st'.update, st'.scanned, spks.drop batchSize, .pending, t + 1⟩

/-- lib.rs:538-595 `populate_with_spks` -/
def populateWithSpks (s : Server) (ho : Order) (u : Update) (spks : List (I × Script)) (stopGap batchSize : Nat)
    (t : Nat) : SpkResult I :=
  let tip := match u.latestCheckpoint with | some cp => cp.height | none => 0
  populateLoop s ho tip stopGap batchSize (spks.length + 1) spks ⟨u, OMap.empty, 0⟩ t

/-- lib.rs:500-529, the `for` over the txids -/
def txidLoop (s : Server) (ho : Order) (tip : Nat) : List Txid → Update → Nat → (Update × Out Unit) × Nat
  | [], u, t => ((u, .ok ()), t)
  | txid :: l, u, t =>
    match s.tx t txid with
    | .protocolErr => txidLoop s ho tip l u (t + 1)
    | .otherErr => ((u, .error), t + 1)
    | .ok tx =>
      match tx.output.head? with
      | none => ((u, .panic), t + 1)
      | some txo =>
        match s.history (t + 1) txo.spk with
        | none => ((u, .error), t + 2)
        | some hist =>
          match hist.find? (fun r => decide (r.1 = txid)) with
          | none => txidLoop s ho tip l u (t + 2)
          | some r =>
            match putTx ho u txid (determineTxHeight r.2 tip r.1) with
            | (u', .ok _) => txidLoop s ho tip l u' (t + 2)
            | (u', o) => ((u', o), t + 2)

/-- lib.rs:492-531 `populate_with_txids` -/
def populateWithTxids (s : Server) (ho : Order) (u : Update) (txids : List Txid) (t : Nat) :
    (Update × Out Unit) × Nat :=
  match u.latestCheckpoint with
  | none => ((u, .panic), t)
  | some tip => txidLoop s ho tip.height txids u t

/-- the mutable variables of the inner loop of `populate_with_outpoints` -/
structure OpState where
  update : Update
  full : OMap Txid Tx
  residing : Bool
  spending : Bool
  time : Nat

/-- lib.rs:453-462: the full transaction of a history entry, from the cache or the server -/
def opTx (s : Server) (st : OpState) (txid : Txid) : OpState × Option Tx :=
  match st.full.get txid with
  | some tx => (st, some tx)
  | none =>
    match s.tx st.time txid with
    | .ok tx => ({ st with full := st.full.insert txid tx, time := st.time + 1 }, some tx)
    | _ => ({ st with time := st.time + 1 }, none)

/-- lib.rs:470-481, end of an iteration: insert the transaction -/
def opPut (ho : Order) (tip : Nat) (st : OpState) (r : Txid × Int) : OpState × Out Unit :=
  match putTx ho st.update r.1 (determineTxHeight r.2 tip r.1) with
  | (u, o) => ({ st with update := u }, o)

/-- lib.rs:437-482, the `for` over the history of the outpoint's script -/
def opLoop (s : Server) (ho : Order) (tip : Nat) (op : OutPoint) (tx : Tx) :
    List (Txid × Int) → OpState → OpState × Out Unit
  | [], st => (st, .ok ())
  | r :: l, st =>
    if st.residing && st.spending then (st, .ok ())
    else if r.1 = op.txid then
      if st.residing then opLoop s ho tip op tx l st
      else
        match opPut ho tip { st with residing := true, full := st.full.insert r.1 tx } r with
        | (st', .ok _) => opLoop s ho tip op tx l st'
        | q => q
    else if st.spending then opLoop s ho tip op tx l st
    else
      match opTx s st r.1 with
      | (st', none) => (st', .error)
      | (st', some resTx) =>
        if decide (op ∈ resTx.input) then
          match opPut ho tip { st' with spending := true } r with
          | (st'', .ok _) => opLoop s ho tip op tx l st''
          | q => q
        else opLoop s ho tip op tx l st'

/-- lib.rs:428-483, the `for` over the outpoints (`debug_assert_eq!` of line 431 left out: release build) -/
def outpointLoop (s : Server) (ho : Order) (tip : Nat) :
    List OutPoint → Update → OMap Txid Tx → Nat → (Update × Out Unit) × Nat
  | [], u, _, t => ((u, .ok ()), t)
  | op :: l, u, full, t =>
    match s.tx t op.txid with
    | .protocolErr => ((u, .error), t + 1)
    | .otherErr => ((u, .error), t + 1)
    | .ok tx =>
      match tx.output[op.vout.val]? with
      | none => outpointLoop s ho tip l u full (t + 1)
      | some txout =>
        match s.history (t + 1) txout.spk with
        | none => ((u, .error), t + 2)
        | some hist =>
          match opLoop s ho tip op tx hist ⟨u, full, false, false, t + 2⟩ with
          | (st, .ok _) => outpointLoop s ho tip l st.update st.full st.time
          | (st, o) => ((st.update, o), st.time)

/-- lib.rs:418-485 `populate_with_outpoints` -/
def populateWithOutpoints (s : Server) (ho : Order) (u : Update) (ops : List OutPoint) (t : Nat) :
    (Update × Out Unit) × Nat :=
  match u.latestCheckpoint with
  | none => ((u, .panic), t)
  | some tip => outpointLoop s ho tip.height ops u OMap.empty t

variable {K : Type} [LinearOrder K]

/-- the variables of `scan` that survive a round: the iterators and the scripts scanned so far -/
structure ScanState (K : Type) [LinearOrder K] where
  requests : List (K × List (Nat × Script))
  scanned : OMap (K ×ₗ Nat) (Script × Bool)

/-- lib.rs:151-167, the `for` over the keychains: state, update, outcome, time.
`Reorg` is handled by `continue` (line 159), which goes on with the next keychain. -/
def keychainLoop (s : Server) (ho : Order) (stopGap batchSize : Nat) :
    List (K × List (Nat × Script)) → Update → OMap (K ×ₗ Nat) (Script × Bool) → Nat →
    (ScanState K × Update) × Out Unit × Nat
  | [], u, scanned, t => ((⟨[], scanned⟩, u), .ok (), t)
  | (k, spks) :: l, u, scanned, t =>
    let r := populateWithSpks s ho u spks stopGap batchSize t
    match r.out with
    | .ok _ =>
      let scanned' := r.scanned.entries.foldl (fun m e => m.insert (toLex (k, e.1)) e.2) scanned
      let q := keychainLoop s ho stopGap batchSize l r.update scanned' r.time
      ((⟨(k, r.rest) :: q.1.1.requests, q.1.1.scanned⟩, q.1.2), q.2)
    | .reorg =>
      let q := keychainLoop s ho stopGap batchSize l r.update scanned r.time
      ((⟨(k, r.rest) :: q.1.1.requests, q.1.1.scanned⟩, q.1.2), q.2)
    | .error => ((⟨(k, r.rest) :: l, scanned⟩, r.update), .error, r.time)
    | .panic => ((⟨(k, r.rest) :: l, scanned⟩, r.update), .panic, r.time)
    | .pending => ((⟨(k, r.rest) :: l, scanned⟩, r.update), .pending, r.time)

/-- lib.rs:135-150: rescan of the scripts of earlier rounds, all keychains in one go -/
def rescan (s : Server) (ho : Order) (stopGap batchSize : Nat) (scanned : OMap (K ×ₗ Nat) (Script × Bool))
    (u : Update) (t : Nat) : (OMap (K ×ₗ Nat) (Script × Bool) × Update) × Out Unit × Nat :=
  if scanned.isEmpty then ((scanned, u), .ok (), t)
  else
    let r := populateWithSpks s ho u (scanned.entries.map (fun e => (e.1, e.2.1))) stopGap batchSize t
    match r.out with
    | .ok _ => ((scanned.append r.scanned, r.update), .ok (), r.time)
    | o => ((scanned, r.update), o, r.time)

/-- lib.rs:134-168, the script part of a round -/
def scriptPart (s : Server) (ho : Order) (stopGap batchSize : Nat) (st : ScanState K) (u : Update) (t : Nat) :
    (ScanState K × Update) × Out Unit × Nat :=
  if st.requests.isEmpty then ((st, u), .ok (), t)
  else
    match rescan s ho stopGap batchSize st.scanned u t with
    | ((scanned, u), .ok _, t) => keychainLoop s ho stopGap batchSize st.requests u scanned t
    | ((scanned, u), .reorg, t) => ((⟨st.requests, scanned⟩, u), .reorg, t)
    | ((scanned, u), .error, t) => ((⟨st.requests, scanned⟩, u), .error, t)
    | ((scanned, u), .panic, t) => ((⟨st.requests, scanned⟩, u), .panic, t)
    | ((scanned, u), .pending, t) => ((⟨st.requests, scanned⟩, u), .pending, t)

/-- lib.rs:182-192: final check that the scanned tip is still in the chain -/
def finalCheck (s : Server) (u : Update) (t : Nat) : Out Update × Nat :=
  match u.latestCheckpoint with
  | none => (.panic, t)
  | some tip =>
    match s.header t tip.height with
    | none => (.error, t + 1)
    | some hash => if tip.hash = hash then (.ok u, t + 1) else (.reorg, t + 1)

/-- lib.rs:170-192: txids, outpoints and the final check -/
def restOfRound (s : Server) (ho : Order) (txids : List Txid) (ops : List OutPoint) (u : Update) (t : Nat) :
    Out Update × Nat :=
  match populateWithTxids s ho u txids t with
  | ((u, .ok _), t) =>
    match populateWithOutpoints s ho u ops t with
    | ((u, .ok _), t) => finalCheck s u t
    | ((_, .reorg), t) => (.reorg, t)
    | ((_, .error), t) => (.error, t)
    | ((_, .panic), t) => (.panic, t)
    | ((_, .pending), t) => (.pending, t)
  | ((_, .reorg), t) => (.reorg, t)
  | ((_, .error), t) => (.error, t)
  | ((_, .panic), t) => (.panic, t)
  | ((_, .pending), t) => (.pending, t)

/-- lib.rs:131-193: one round of the loop; `reorg` is `continue` of the outer loop -/
def scanRound (s : Server) (ho : Order) (localChain : OMap Nat BlockHash) (txids : List Txid) (ops : List OutPoint)
    (stopGap batchSize fuel : Nat) (st : ScanState K) (t : Nat) : ScanState K × Out Update × Nat :=
  match prepareUpdate s ho localChain fuel t with
  | (.ok u, t) =>
    match scriptPart s ho stopGap batchSize st u t with
    | ((st, u), .ok _, t) => (st, restOfRound s ho txids ops u t)
    | ((st, _), .reorg, t) => (st, .reorg, t)
    | ((st, _), .error, t) => (st, .error, t)
    | ((st, _), .panic, t) => (st, .panic, t)
    | ((st, _), .pending, t) => (st, .pending, t)
  | (.reorg, t) => (st, .reorg, t)
  | (.error, t) => (st, .error, t)
  | (.panic, t) => (st, .panic, t)
  | (.pending, t) => (st, .pending, t)

/-- lib.rs:131-193: the loop, with a bound on the number of rounds (and on the recursion of `prepare_update`) -/
def scanLoop (s : Server) (ho : Order) (localChain : OMap Nat BlockHash) (txids : List Txid) (ops : List OutPoint)
    (stopGap batchSize : Nat) : Nat → ScanState K → Nat → Out (ScanState K × Update)
  | 0, _, _ => .pending
  | n + 1, st, t =>
    match scanRound s ho localChain txids ops stopGap batchSize (n + 1) st t with
    | (st, .ok u, _) => .ok (st, u)
    | (st, .reorg, t) => scanLoop s ho localChain txids ops stopGap batchSize n st t
    | (_, .error, _) => .error
    | (_, .panic, _) => .panic
    | (_, .pending, _) => .pending

/-- lib.rs:210-215 `struct ElectrumUpdate` -/
structure ElectrumUpdate (K P : Type) [LinearOrder K] [LinearOrder P] where
  chainUpdate : SparseChain P
  lastActive : OMap K Nat

/-- lib.rs:198-202: the highest active scanned index of a keychain -/
def lastActiveOf (scanned : OMap (K ×ₗ Nat) (Script × Bool)) (k : K) : Option Nat :=
  ((scanned.entries.filter (fun e => decide ((ofLex e.1).1 = k))).reverse.find? (fun e => e.2.2)).map
    (fun e => (ofLex e.1).2)

/-- lib.rs:195-204 -/
def lastActiveIndices (requests : List (K × List (Nat × Script))) (scanned : OMap (K ×ₗ Nat) (Script × Bool)) :
    OMap K Nat :=
  OMap.ofList (requests.filterMap (fun e => (lastActiveOf scanned e.1).map (fun i => (e.1, i))))

/-- lib.rs:108-206 `ElectrumExt::scan` -/
def scan (s : Server) (ho : Order) (localChain : OMap Nat BlockHash) (keychainSpks : OMap K (List (Nat × Script)))
    (txids : List Txid) (ops : List OutPoint) (stopGap batchSize rounds t : Nat) : Out (ElectrumUpdate K TxHeight) :=
  match scanLoop s ho localChain txids ops stopGap batchSize rounds ⟨keychainSpks.entries, OMap.empty⟩ t with
  | .ok (st, u) => .ok ⟨u, lastActiveIndices st.requests st.scanned⟩
  | .reorg => .reorg
  | .error => .error
  | .panic => .panic
  | .pending => .pending

/-- lib.rs:74-98 `scan_without_keychain` (`usize::MAX` is larger than any script list) -/
def scanWithoutKeychain (s : Server) (ho : Order) (localChain : OMap Nat BlockHash) (spks : List Script)
    (txids : List Txid) (ops : List OutPoint) (batchSize rounds t : Nat) : Out Update :=
  match scan s ho localChain (OMap.ofList [((), spks.zipIdx.map (fun e => (e.2, e.1)))]) txids ops u64Max batchSize
      rounds t with
  | .ok r => .ok r.chainUpdate
  | .reorg => .reorg
  | .error => .error
  | .panic => .panic
  | .pending => .pending

section update
variable {P : Type} [LinearOrder P] [ChainPosition P]

/-- lib.rs:236-246 `missing_full_txs` -/
def ElectrumUpdate.missingFullTxs {T : Type} (e : ElectrumUpdate K P) (g : TxGraph T) : List Txid :=
  (e.chainUpdate.txids.filter (fun x => (g.getTx x.2).isNone)).map Prod.snd

end update

/-- lib.rs:297-309: the loop inserting every transaction with its block time; `none` is a panic (`height_to_time[..]`
or `expect("must insert")`) -/
def timeLoop (times : List (Nat × Fin (2 ^ 64))) (ho : HashOrder (Txid × ConfirmationTime)) :
    List (TxHeight × Txid) → SparseChain ConfirmationTime → Option (SparseChain ConfirmationTime)
  | [], u => some u
  | (.unconfirmed, txid) :: l, u =>
    match u.insertTx txid .unconfirmed ho with
    | (u', .ok _) => timeLoop times ho l u'
    | _ => none
  | (.confirmed h, txid) :: l, u =>
    match times.reverse.lookup h with
    | none => none
    | some time =>
      match u.insertTx txid (.confirmed h time) ho with
      | (u', .ok _) => timeLoop times ho l u'
      | _ => none

/-- lib.rs:276-283: the heights of the confirmed transactions; `none` is the panic of `unreachable!` or of the range -/
def confirmedHeights (u : Update) : Option (List Nat) :=
  match u.rangeTxidsByHeight .unbounded (.excluded .unconfirmed) with
  | none => none
  | some l => l.mapM (fun e => match e.1 with | .confirmed h => some h | .unconfirmed => none)

/-- lib.rs:272-315 `into_confirmation_time_update`; one batch request for all headers -/
def ElectrumUpdate.intoConfirmationTime (e : ElectrumUpdate K TxHeight) (s : Server)
    (ho : HashOrder (Txid × ConfirmationTime)) (t : Nat) : Out (ElectrumUpdate K ConfirmationTime) :=
  match confirmedHeights e.chainUpdate with
  | none => .panic
  | some heights =>
    match heights.mapM (fun h => s.headerTime t h) with
    | none => .error
    | some times =>
      match timeLoop (heights.zip times) ho e.chainUpdate.txids
          (SparseChain.fromCheckpoints (e.chainUpdate.checkpoints.entries.map (fun x => ⟨x.1, x.2⟩))) with
      | none => .panic
      | some u => .ok ⟨u, e.lastActive⟩

end Verif.Electrum
