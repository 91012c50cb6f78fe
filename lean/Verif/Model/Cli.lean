import Verif.Model.Tracker
import Verif.Model.Bnb
import Verif.Model.KeyDerive
import Mathlib.Data.List.Sort

/-!
# Model of the wallet commands of bdk_cli_lib (bdk_cli_lib/src/lib.rs) and of `CoinSelectorOpt::fund_outputs`,
`Selection::apply_selection` (bdk_coin_select/src/coin_selector.rs)

`none` is a panic (of a debug build).  Descriptors are taproot descriptors, as in the model of the planner.
Printing to the terminal, writing to the database and broadcasting are events; whether a write or a broadcast succeeds is
decided by the outside world.
-/

namespace Verif.Cli
open Verif Verif.CoinSelect Verif.Planner

/-- bdk_cli_lib/src/lib.rs:155-158 `enum Keychain` -/
inductive Keychain where
  | external
  | internal
deriving DecidableEq, Repr

/-- derived `Ord` (lib.rs:153) -/
def Keychain.toNat : Keychain → Nat
  | .external => 0
  | .internal => 1

instance : LinearOrder Keychain := LinearOrder.lift' Keychain.toNat (by
  intro a b h; cases a <;> cases b <;> first | rfl | cases h)

/-- `bitcoin::TxIn`; the script sig of a taproot input is empty -/
structure TxIn where
  previousOutput : OutPoint
  sequence : Nat
  witness : List Bytes
deriving DecidableEq, Repr

/-- `bitcoin::Transaction` -/
structure BuiltTx where
  version : Nat
  lockTime : Nat
  input : List TxIn
  output : List TxOut
deriving DecidableEq, Repr

/-- rust-bitcoin: serialized length of a witness stack -/
def witnessLen (w : List Bytes) : Nat := CoinSelect.varintSize w.length + (w.map fun e => CoinSelect.varintSize e.length + e.length).sum

/-- rust-bitcoin: `8 + varint(len) + len` -/
def txoutSize (scriptLen : Script → Nat) (o : TxOut) : Nat :=
  8 + CoinSelect.varintSize (scriptLen o.spk) + scriptLen o.spk

/-- rust-bitcoin: the weight of one input, without the marker byte of an empty witness -/
def txinWeight (i : TxIn) : Nat := 4 * (32 + 4 + 4 + 1) + (if i.witness = [] then 0 else witnessLen i.witness)

/-- rust-bitcoin 0.29 `Transaction::weight` (`get_scaled_size(4)`) -/
def BuiltTx.weight (scriptLen : Script → Nat) (t : BuiltTx) : Nat :=
  let nonInput := 4 + CoinSelect.varintSize t.input.length + CoinSelect.varintSize t.output.length
    + (t.output.map (txoutSize scriptLen)).sum + 4
  let withWitness := t.input.countP fun i => decide (i.witness ≠ [])
  if withWitness = 0 then nonInput * 4 + (t.input.map txinWeight).sum
  else nonInput * 4 + (t.input.map txinWeight).sum + (t.input.length - withWitness) + 2

/-- coin_selector.rs:92-119 `fund_outputs` -/
def fundOutputs (scriptLen : Script → Nat) (txouts : List TxOut) (drain : TxOut) (drainSatisfactionWeight : Nat) : Opt :=
  let tx : BuiltTx := ⟨1, 0, [], txouts⟩
  let baseWeight := tx.weight scriptLen
  let drainWeight := ({ tx with output := txouts ++ [drain] } : BuiltTx).weight scriptLen - baseWeight
  { Opt.fromWeights baseWeight drainWeight (txinBaseWeight + drainSatisfactionWeight) with
    targetValue := if txouts.isEmpty then none else some (txouts.map TxOut.value).sum }

/-- coin_selector.rs:491-497 `apply_selection` (the `BTreeSet` of selected indexes is read in ascending order);
`none` = index out of bounds -/
def applySelection {α : Type} (selected : Finset Nat) (candidates : List α) : Option (List α) :=
  (selected.sort (· ≤ ·)).mapM fun i => candidates[i]?

/-- lib.rs:64-81 `enum CoinSelectionAlgo` -/
inductive Algo where
  | largestFirst | smallestFirst | oldestFirst | newestFirst | branchAndBound
deriving DecidableEq, Repr

/-- What the commands use of other crates and of the command line: descriptors as taproot descriptors
(`at_derivation_index`), `dust_value`, script lengths, the planner's library functions, the key map of the descriptors
(`assetKeys` are its keys in the order of the hash map), signature hashing of an input of a transaction, and the
`Transaction` type of the chain. -/
structure Env (D Key Ak Sec XPrv Msg T : Type) where
  lib : Lib Key
  canDerive : Ak → Key → Option Path
  trAt : D → Nat → Tr Key
  dustValue : D → Nat
  scriptLen : Script → Nat
  keymap : Ak → Option (DSec Sec XPrv)
  assetKeys : List Ak
  crypto : BuiltTx → Nat → List TxOut → Crypto Sec XPrv Msg
  toT : BuiltTx → T

/-- everything the outside decides during one `create_tx`: the iteration orders of the hash containers, the order
`sort_unstable_by` gives to equal candidates, the number of branch and bound rounds before the time limit -/
structure Luck where
  spend : SpendOrder
  sort : List (Nat × WV) → List (Nat × WV)
  rounds : Nat
  strategies : HashOrder (Kind × Strat)

/-- errors returned by `create_tx` and `handle_commands` -/
inductive CmdErr where
  | selection (e : SelErr)
  | signing (e : SigningError)
  | incomplete
  | persist
  | broadcast
  | alreadyConfirmed
  | conflictConfirmed
deriving DecidableEq, Repr

section
variable {D Key Ak Sec XPrv Msg T P : Type} [DescriptorOps D] [LinearOrder P] [ChainPosition P] [LinearOrder T]
  [AsTransaction T] [DecidableEq Key]

/-- a spendable output with its plan -/
abbrev Candidate (Key Ak P : Type) := Plan Key Ak × FullTxOut P

/-- lib.rs:319-322 the assets -/
def Env.assets (env : Env D Key Ak Sec XPrv Msg T) : Assets Ak := { keys := env.assetKeys }

/-- `plan_satisfaction(&descriptor.at_derivation_index(index), &assets)` -/
def Env.plan (env : Env D Key Ak Sec XPrv Msg T) (d : D) (i : Nat) : Out (Option (Plan Key Ak)) :=
  planTr env.lib env.canDerive (env.trAt d i) env.assets

/-- lib.rs:673-695 `planned_utxos`, collected -/
def plannedUtxos (env : Env D Key Ak Sec XPrv Msg T) (t : Tracker Keychain D P T) :
    List ((Keychain × Nat) × FullTxOut P) → Option (List (Candidate Key Ak P))
  | [] => some []
  | (ki, f) :: l =>
    match t.txoutIndex.keychains.get ki.1 with
    | none => none
    | some d =>
      match env.plan d ki.2 with
      | .panic => none
      | .ret none => plannedUtxos env t l
      | .ret (some p) => (plannedUtxos env t l).map ((p, f) :: ·)

/-- lib.rs:332-344 (stable sorts) -/
def sortCandidates (algo : Algo) (l : List (Candidate Key Ak P)) : List (Candidate Key Ak P) :=
  match algo with
  | .largestFirst => l.insertionSort (fun a b => b.2.txout.value ≤ a.2.txout.value)
  | .smallestFirst => l.insertionSort (fun a b => a.2.txout.value ≤ b.2.txout.value)
  | .oldestFirst => l.insertionSort (fun a b => a.2.chainPosition ≤ b.2.chainPosition)
  | .newestFirst => l.insertionSort (fun a b => b.2.chainPosition ≤ a.2.chainPosition)
  | .branchAndBound => l

/-- lib.rs:347-356 one weighted value -/
def weighted (env : Env D Key Ak Sec XPrv Msg T) (c : Candidate Key Ak P) : Option WV :=
  match c.1.expectedWeight env.lib with
  | .panic => none
  | .ret w => some (WV.new c.2.txout.value w c.1.witnessVersion.isSome)

/-- lib.rs:363-372 -/
def internalKeychain (t : Tracker Keychain D P T) : Keychain :=
  if (t.txoutIndex.keychains.get .internal).isSome then .internal else .external

/-- lib.rs:399-412 the options of coin selection -/
def selectorOpt (env : Env D Key Ak Sec XPrv Msg T) (d : D) (outputs : List TxOut) (change : TxOut) (changeWeight : Nat) : Opt :=
  { fundOutputs env.scriptLen outputs change changeWeight with
    targetFeerate := 1 / 2
    minDrainValue := env.dustValue d }

/-- lib.rs:420-426 -/
def runSelection (algo : Algo) (luck : Luck) (s : Selector) : Option (Except SelErr Selection) :=
  match algo with
  | .branchAndBound =>
    match coinSelectBnb luck.sort luck.rounds s with
    | none => none
    | some none => s.selectUntilFinished.map (·.1)
    | some (some s') => s'.finish
  | _ => s.selectUntilFinished.map (·.1)

/-- `LockTime::from_height(h).ok()`, or zero (lib.rs:440-445) -/
def lockTimeOf (t : Tracker Keychain D P T) : Nat :=
  match t.chainGraph.chain.latestCheckpoint with
  | some b => if b.height < 500000000 then b.height else 0
  | none => 0

/-- lib.rs:446-453 and 462-466: the unsigned inputs; `Sequence::ENABLE_RBF_NO_LOCKTIME` is `0xFFFFFFFD` -/
def unsignedInput (c : Candidate Key Ak P) : TxIn :=
  ⟨c.2.outpoint, c.1.requiredSequence.getD 0xFFFFFFFD, []⟩

/-- lib.rs:472-505: one iteration of the signing loop: the witness of input `i` -/
def signInput (env : Env D Key Ak Sec XPrv Msg T) (tx : BuiltTx) (prevouts : List TxOut) (i : Nat)
    (p : Plan Key Ak) : Option (Except CmdErr (List Bytes)) :=
  match p.requirements env.lib with
  | .panic => none
  | .ret r =>
    if r.requiresPreimages then none
    else
      match signWithKeymap (env.crypto tx i prevouts) env.keymap 0 {} r.signatures with
      | .panic => none
      | .ret (_, .error e) => some (.error (.signing e))
      | .ret (_, .ok false) => none
      | .ret (m, .ok true) =>
        match p.tryComplete env.lib m with
        | .panic => none
        | .ret (.complete w) => some (.ok w)
        | .ret (.incomplete _) => some (.error .incomplete)

/-- lib.rs:472-505: the signing loop; `tx` is the copy that is hashed -/
def signInputs (env : Env D Key Ak Sec XPrv Msg T) (tx : BuiltTx) (prevouts : List TxOut) :
    Nat → List (Candidate Key Ak P) → Option (Except CmdErr (List TxIn))
  | _, [] => some (.ok [])
  | i, c :: cs =>
    match signInput env tx prevouts i c.1 with
    | none => none
    | some (.error e) => some (.error e)
    | some (.ok w) =>
      match signInputs env tx prevouts (i + 1) cs with
      | none => none
      | some (.error e) => some (.error e)
      | some (.ok ins) => some (.ok ({ unsignedInput c with witness := w } :: ins))

/-- what `create_tx` returns on success -/
structure Created (T : Type) where
  tx : BuiltTx
  change : Option (DerivationAdditions Keychain × (Keychain × Nat))

/-- lib.rs:428-513: from the selection to the signed transaction -/
def assemble (env : Env D Key Ak Sec XPrv Msg T) (luck : Luck) (t : Tracker Keychain D P T)
    (candidates : List (Candidate Key Ak P)) (payment change : TxOut)
    (changeInfo : DerivationAdditions Keychain × (Keychain × Nat)) (sel : Selection) :
    Option (Except CmdErr (Created T)) := do
  let (_, best) ← Selection.bestStrategy (luck.strategies.perm sel.strategies)
  let selected ← applySelection sel.selected candidates
  let outputs := match best.drainValue with
    | some v => [payment, { change with value := v }]
    | none => [payment]
  let unsigned : BuiltTx := ⟨2, lockTimeOf t, selected.map unsignedInput, outputs⟩
  let r ← signInputs env unsigned (selected.map fun c => c.2.txout) 0 selected
  match r with
  | .error e => return .error e
  | .ok ins => return .ok ⟨{ unsigned with input := ins }, if best.drainValue.isSome then some changeInfo else none⟩

/-- lib.rs:308-522 `create_tx`: the state of the tracker also changes when the call fails later on -/
def createTx (env : Env D Key Ak Sec XPrv Msg T) (luck : Luck) (t : Tracker Keychain D P T) (value : Nat) (payee : Script)
    (algo : Algo) : Option (Tracker Keychain D P T × Except CmdErr (Created T)) := do
  let planned ← plannedUtxos env t (t.fullUtxos luck.spend)
  let candidates := sortCandidates algo planned
  let wv ← candidates.mapM (weighted env)
  let payment : TxOut := ⟨value, payee⟩
  let k := internalKeychain t
  let (index, (changeIndex, changeScript), additions) ← t.txoutIndex.nextUnusedSpk k
  let t' := { t with txoutIndex := index }
  let d ← t'.txoutIndex.keychains.get k
  match env.plan d changeIndex with
  | .panic => none
  | .ret none => none
  | .ret (some changePlan) =>
    match changePlan.expectedWeight env.lib with
    | .panic => none
    | .ret changeWeight =>
      let change : TxOut := ⟨0, changeScript⟩
      let r ← runSelection algo luck (Selector.new wv (selectorOpt env d [payment] change changeWeight))
      match r with
      | .error e => return (t', .error (.selection e))
      | .ok sel =>
        let res ← assemble env luck t' candidates payment change (additions, (k, changeIndex)) sel
        return (t', res)

/-! ### commands as events -/

/-- what the outside sees, in order -/
inductive Event (P T : Type) [LinearOrder P] [LinearOrder T] where
  /-- `append_changeset` returned `Ok` -/
  | stored (cs : KeychainChangeSet Keychain P T)
  /-- `append_changeset` returned an error; nothing of the changeset can be read back -/
  | storeFailed (cs : KeychainChangeSet Keychain P T)
  /-- an address was printed -/
  | shown (k : Keychain) (i : Nat) (spk : Script)
  /-- the `broadcast` closure was called, and whether it returned `Ok` -/
  | broadcast (tx : BuiltTx) (ok : Bool)

/-- lib.rs:127-141 `enum AddressCmd` (the listing variants print without changing anything) -/
inductive AddressCmd where
  | next | new | list | index
deriving DecidableEq, Repr

/-- `store.append_changeset(&cs)`; `ok` is what the database does.  An empty changeset is not written
(bdk_file_store/src/file_store.rs:142-144) and reported as success.  Simplification: a write that fails leaves nothing that
can be read back (what a partial write leaves is the subject of the model of the file store). -/
def store (cs : KeychainChangeSet Keychain P T) (ok : Bool) : List (Event P T) × Bool :=
  if cs.isEmpty then ([], true) else if ok then ([.stored cs], true) else ([.storeFailed cs], false)

/-- lib.rs:189-193 the script asked for -/
def addressSpk (t : Tracker Keychain D P T) (cmd : AddressCmd) :
    Option (Option (KeychainIndex Keychain D × (Nat × Script) × DerivationAdditions Keychain)) :=
  match cmd with
  | .next => (t.txoutIndex.nextUnusedSpk .external).map some
  | .new => (t.txoutIndex.revealNextSpk .external).map some
  | .list => some none
  | .index => some none

/-- lib.rs:177-240 `run_address_cmd` -/
def runAddressCmd (t : Tracker Keychain D P T) (cmd : AddressCmd) (storeOk : Bool) :
    Option (Tracker Keychain D P T × List (Event P T) × Except CmdErr Unit) :=
  match addressSpk t cmd with
  | none => none
  | some none => some (t, [], .ok ())
  | some (some (index, (i, spk), additions)) =>
    let t' := { t with txoutIndex := index }
    let s : List (Event P T) × Bool := store (.ofAdditions additions) storeOk
    if s.2 then some (t', s.1 ++ [.shown .external i spk], .ok ())
    else some (t', s.1, .error .persist)

/-- a transaction on its way to the network: the state of `Send` between the two places where it holds the locks -/
structure InFlight where
  tx : BuiltTx
  change : Option (Keychain × Nat)
deriving DecidableEq

/-- lib.rs:549-572 the first half of `Send`, under the lock of the tracker -/
def sendPrepare (env : Env D Key Ak Sec XPrv Msg T) (luck : Luck) (t : Tracker Keychain D P T) (value : Nat) (payee : Script)
    (algo : Algo) (storeOk : Bool) : Option (Tracker Keychain D P T × List (Event P T) × Except CmdErr InFlight) :=
  match createTx env luck t value payee algo with
  | none => none
  | some (t', .error e) => some (t', [], .error e)
  | some (t', .ok c) =>
    match c.change with
    | none => some (t', [], .ok ⟨c.tx, none⟩)
    | some (additions, (k, i)) =>
      let s : List (Event P T) × Bool := store (.ofAdditions additions) storeOk
      if s.2 then
        some ({ t' with txoutIndex := (t'.txoutIndex.markUsed k i).1 }, s.1, .ok ⟨c.tx, some (k, i)⟩)
      else some (t', s.1, .error .persist)

/-- lib.rs:576-597 the second half of `Send` after a successful broadcast, under the lock of the tracker.
`none` also for the `unreachable!` of line 589. -/
def sendSucceeded (env : Env D Key Ak Sec XPrv Msg T) (t : Tracker Keychain D P T) (f : InFlight) (o : Orders P T)
    (storeOk : Bool) : Option (Tracker Keychain D P T × List (Event P T) × Except CmdErr Unit) :=
  match t.insertTx (env.toT f.tx) (ChainPosition.maxOrd .unconfirmed) o with
  | none => none
  | some (t', .ok cs) =>
    let s := store cs storeOk
    some (t', s.1, if s.2 then .ok () else .error .persist)
  | some (_, .error (.chain (.txTooHigh ..))) => none
  | some (t', .error (.chain (.txMovedUnexpectedly ..))) => some (t', [], .error .alreadyConfirmed)
  | some (t', .error (.unresolvableConflict _)) => some (t', [], .error .conflictConfirmed)

/-- lib.rs:598-605 the second half of `Send` after a failed broadcast -/
def sendFailed (t : Tracker Keychain D P T) (f : InFlight) : Tracker Keychain D P T :=
  match f.change with
  | some (k, i) => { t with txoutIndex := (t.txoutIndex.unmarkUsed k i).1 }
  | none => t

/-- bdk_electrum_example/src/main.rs:235-243: the changes of a scan are written first and applied only if that succeeds -/
def syncElectrum (t : Tracker Keychain D P T) (scan : KeychainScan Keychain P T) (o : Orders P T) (storeOk : Bool) :
    Option (Tracker Keychain D P T × List (Event P T)) :=
  match t.determineChangeset scan o with
  | .panic => none
  | .err _ => some (t, [])
  | .ok cs =>
    let s := store cs storeOk
    if s.2 then (t.applyChangeset cs).map (fun t' => (t', s.1)) else some (t, s.1)

/-- bdk_esplora_example/src/main.rs:122-128 and 229-235: the changes of a scan are applied first and then written -/
def syncEsplora (t : Tracker Keychain D P T) (scan : KeychainScan Keychain P T) (o : Orders P T) (storeOk : Bool) :
    Option (Tracker Keychain D P T × List (Event P T)) :=
  match t.applyUpdate scan o with
  | none => none
  | some (t', .error _) => some (t', [])
  | some (t', .ok cs) => some (t', (store cs storeOk).1)

/-- lib.rs:625-649: the tracker that `init` sets up before it loads the database -/
def initTracker [DecidableEq D] (cpLimit : Nat) (external : D) (internal : Option D) : Option (Tracker Keychain D P T) :=
  let t := (Tracker.empty : Tracker Keychain D P T).setCheckpointLimit (some cpLimit)
  match t.addKeychain .external external with
  | none => none
  | some t =>
    match internal with
    | none => some t
    | some d => t.addKeychain .internal d

/-- one `Send` that has its transaction, between the two places where it holds the locks; `sent` is what the `broadcast`
closure returned, once it has been called -/
structure Job where
  flight : InFlight
  sent : Option Bool
deriving DecidableEq

/-- the state of the program (several threads may be in `Send`), and everything that was seen of it so far -/
structure World (D P T : Type) [LinearOrder P] [LinearOrder T] where
  tracker : Tracker Keychain D P T
  jobs : List Job
  trace : List (Event P T)

/-- the changesets in the database -/
def diskOf (trace : List (Event P T)) : List (KeychainChangeSet Keychain P T) :=
  trace.filterMap fun e => match e with | .stored cs => some cs | _ => none

/-- what can happen next: one critical section (the code between taking the lock of the tracker and releasing it) of one of
the threads, a call of `broadcast`, or a crash of the program followed by a new start: between two actions, or inside of
action `a` after the first `m` of its effects -/
inductive Act (P T : Type) [LinearOrder P] [LinearOrder T] where
  | address (cmd : AddressCmd) (storeOk : Bool)
  | sendPrepare (luck : Luck) (value : Nat) (payee : Script) (algo : Algo) (storeOk : Bool)
  | broadcast (n : Nat) (ok : Bool)
  | sendFinish (n : Nat) (o : Orders P T) (storeOk : Bool)
  | syncElectrum (scan : KeychainScan Keychain P T) (o : Orders P T) (storeOk : Bool)
  | syncEsplora (scan : KeychainScan Keychain P T) (o : Orders P T) (storeOk : Bool)
  | restart
  | crashIn (a : Act P T) (m : Nat)

/-- lib.rs:651-667: `init` replays the database onto the fresh tracker -/
def reload (base : Tracker Keychain D P T) (trace : List (Event P T)) : Option (World D P T) :=
  match base.replay (diskOf trace) with
  | none => none
  | some t => some ⟨t, [], trace⟩

/-- one action; `base` is the tracker of `init` before loading; `none` = panic.  An action for a job that is not there, or
not at that point, does nothing. -/
def step (env : Env D Key Ak Sec XPrv Msg T) (base : Tracker Keychain D P T) (w : World D P T) : Act P T → Option (World D P T)
  | .address cmd ok =>
    match runAddressCmd w.tracker cmd ok with
    | none => none
    | some (t, es, _) => some { w with tracker := t, trace := w.trace ++ es }
  | .sendPrepare luck value payee algo ok =>
    match sendPrepare env luck w.tracker value payee algo ok with
    | none => none
    | some (t, es, .ok f) => some ⟨t, w.jobs ++ [⟨f, none⟩], w.trace ++ es⟩
    | some (t, es, .error _) => some { w with tracker := t, trace := w.trace ++ es }
  | .broadcast n ok =>
    match w.jobs[n]? with
    | some ⟨f, none⟩ => some { w with jobs := w.jobs.set n ⟨f, some ok⟩, trace := w.trace ++ [.broadcast f.tx ok] }
    | _ => some w
  | .sendFinish n o ok =>
    match w.jobs[n]? with
    | some ⟨f, some true⟩ =>
      match sendSucceeded env w.tracker f o ok with
      | none => none
      | some (t, es, _) => some ⟨t, w.jobs.eraseIdx n, w.trace ++ es⟩
    | some ⟨f, some false⟩ => some { w with tracker := sendFailed w.tracker f, jobs := w.jobs.eraseIdx n }
    | _ => some w
  | .syncElectrum scan o ok =>
    match syncElectrum w.tracker scan o ok with
    | none => none
    | some (t, es) => some { w with tracker := t, trace := w.trace ++ es }
  | .syncEsplora scan o ok =>
    match syncEsplora w.tracker scan o ok with
    | none => none
    | some (t, es) => some { w with tracker := t, trace := w.trace ++ es }
  | .restart => reload base w.trace
  | .crashIn a m =>
    match step env base w a with
    | none => none
    | some w' => reload base (w'.trace.take (w.trace.length + m))

end
end Verif.Cli
