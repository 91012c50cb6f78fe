import Verif.Model.Cli

/-!
# Threads and the two mutexes of the example programs

`handle_commands` and the `main` of the two examples share the tracker and the store behind one mutex each
(bdk_cli_lib/src/lib.rs:527-530).  Here a command is what one thread does step by step: taking a lock, releasing it, one use of what is
behind the locks, one request to the network.  Any number of threads are interleaved in any way, and a thread may panic at any point.
-/

namespace Verif.Locks
open Verif Verif.Cli

/-- the two mutexes (bdk_cli_lib/src/lib.rs:529-530) -/
inductive Lock where
  | tracker
  | store
deriving DecidableEq, Repr

/-- what a thread still has to do.  `σ` is what is behind the locks, `β` a request to the network and `α` its answer. -/
inductive Prog (σ α β : Type) where
  | done
  /-- `mutex.lock().unwrap()` -/
  | lock (l : Lock) (k : Prog σ α β)
  /-- the guard goes out of scope -/
  | unlock (l : Lock) (k : Prog σ α β)
  /-- one use of what is behind the locks; what comes then may depend on what was found -/
  | use (f : σ → σ) (k : σ → Prog σ α β)
  /-- one request to the network, and its answer -/
  | net (b : β) (k : α → Prog σ α β)
  /-- a panic -/
  | fail

/-- the threads, the mutexes and what is behind them -/
structure State (σ α β : Type) where
  shared : σ
  /-- the requests made so far, each with its thread -/
  requests : List (Nat × β)
  /-- the thread that holds the lock -/
  holder : Lock → Option Nat
  /-- `std::sync::Mutex` is poisoned by a panic of its holder -/
  poisoned : Lock → Bool
  prog : Nat → Prog σ α β

/-- what happens next: a step of a thread (with the answer, if the step is a request), or a panic of a thread -/
inductive Move (α : Type) where
  | step (i : Nat) (a : α)
  | panic (i : Nat)

variable {σ α β : Type}

/-- the function with one value changed -/
def set {ι γ : Type} [DecidableEq ι] (f : ι → γ) (i : ι) (x : γ) : ι → γ := fun j => if j = i then x else f j

/-- a panic of thread `i` (`std::sync::Mutex`: unwinding drops the guards, which poisons the mutexes held); the thread is gone -/
def State.unwind (s : State σ α β) (i : Nat) : State σ α β :=
  { s with
    holder := fun l => if s.holder l = some i then none else s.holder l
    poisoned := fun l => s.poisoned l || decide (s.holder l = some i)
    prog := set s.prog i .done }

/-- one move; `none` if it cannot happen: the thread waits for a lock (possibly for one that it holds itself) or is done.
`lock().unwrap()` of a poisoned mutex panics. -/
def State.move (s : State σ α β) : Move α → Option (State σ α β)
  | .panic i =>
    match s.prog i with
    | .done => none
    | _ => some (s.unwind i)
  | .step i a =>
    match s.prog i with
    | .done => none
    | .fail => some (s.unwind i)
    | .lock l k =>
      if s.holder l = none then
        if s.poisoned l then some (s.unwind i)
        else some { s with holder := set s.holder l (some i), prog := set s.prog i k }
      else none
    | .unlock l k =>
      if s.holder l = some i then some { s with holder := set s.holder l none, prog := set s.prog i k } else none
    | .use f k => some { s with shared := f s.shared, prog := set s.prog i (k s.shared) }
    | .net b k => some { s with requests := s.requests ++ [(i, b)], prog := set s.prog i (k a) }

/-- moves one after the other -/
def State.run (s : State σ α β) : List (Move α) → Option (State σ α β)
  | [] => some s
  | m :: l => match s.move m with
    | none => none
    | some s' => s'.run l

/-- nobody has begun: no lock is held, none is poisoned -/
def State.init (x : σ) (p : Nat → Prog σ α β) : State σ α β := ⟨x, [], fun _ => none, fun _ => false, p⟩

/-- one command after the other in the same thread -/
def Prog.andThen : Prog σ α β → Prog σ α β → Prog σ α β
  | .done, q => q
  | .lock l k, q => .lock l (k.andThen q)
  | .unlock l k, q => .unlock l (k.andThen q)
  | .use f k, q => .use f fun s => (k s).andThen q
  | .net b k, q => .net b fun a => (k a).andThen q
  | .fail, _ => .fail

/-! ### the commands -/

section
variable {D Key Ak Sec XPrv Msg P T : Type}
variable [DecidableEq Key] [DecidableEq Ak]
variable [DecidableEq D] [DescriptorOps D]
variable [LinearOrder P] [ChainPosition P] [AsTransaction T] [LinearOrder T]

/-- what is behind the two locks, and what was printed -/
structure Shared (D P T : Type) [LinearOrder P] [LinearOrder T] where
  tracker : Tracker Keychain D P T
  trace : List (Event P T)

/-- a request to the network -/
inductive Request where
  /-- the `broadcast` closure -/
  | broadcast (tx : BuiltTx)
  /-- `scan`, `scan_without_keychain` -/
  | scan
  /-- `batch_transaction_get` (bdk_electrum_example/src/main.rs:231-233) -/
  | fetch
deriving DecidableEq

/-- the answer: whether it succeeded, and the scan.  Simplification: what the electrum example makes of the answers with the tracker
under the lock (`into_keychain_scan`, bdk_electrum_example/src/main.rs:239) is part of the answer. -/
structure Reply (P T : Type) [LinearOrder P] [LinearOrder T] where
  ok : Bool
  scan : KeychainScan Keychain P T

/-- a program of a thread of the examples -/
abbrev Code (D P T : Type) [LinearOrder P] [LinearOrder T] := Prog (Shared D P T) (Reply P T) Request

/-- effects on the store and the terminal -/
def Shared.emit (s : Shared D P T) (es : List (Event P T)) : Shared D P T := { s with trace := s.trace ++ es }

/-- bdk_cli_lib/src/lib.rs:180-240 `run_address_cmd`.  Of the commands that only print (`list`, `index`), the reading is left out. -/
def address (cmd : AddressCmd) (storeOk : Bool) : Code D P T :=
  .lock .tracker <|
  .use (fun s => match addressSpk s.tracker cmd with
    | some (some (index, _)) => { s with tracker := { s.tracker with txoutIndex := index } }
    | _ => s) fun s =>
  match addressSpk s.tracker cmd with
  | none => .fail
  | some none => .unlock .tracker .done
  | some (some (_, (i, spk), additions)) =>
    .lock .store <|
    .use (fun s => s.emit (Cli.store (.ofAdditions additions) storeOk).1) fun _ =>
    if (Cli.store (P := P) (T := T) (.ofAdditions additions) storeOk).2 then
      .use (fun s => s.emit [.shown .external i spk]) fun _ => .unlock .store (.unlock .tracker .done)
    else .unlock .store (.unlock .tracker .done)

/-- bdk_cli_lib/src/lib.rs:242-309 `run_balance_cmd`, `run_txo_cmd`: the tracker is read -/
def print : Code D P T := .lock .tracker (.use id fun _ => .unlock .tracker .done)

/-- bdk_cli_lib/src/lib.rs:575-605 `Send` after the broadcast -/
def sendEnd (env : Env D Key Ak Sec XPrv Msg T) (f : InFlight) (o : Orders P T) (storeOk : Bool) (sent : Bool) : Code D P T :=
  if sent then
    .lock .tracker <|
    .use (fun s => match s.tracker.insertTx (env.toT f.tx) (ChainPosition.maxOrd .unconfirmed) o with
      | some (t', _) => { s with tracker := t' }
      | none => s) fun s =>
    match s.tracker.insertTx (env.toT f.tx) (ChainPosition.maxOrd .unconfirmed) o with
    | none => .fail
    | some (_, .ok cs) =>
      .lock .store (.use (fun s => s.emit (Cli.store cs storeOk).1) fun _ => .unlock .store (.unlock .tracker .done))
    | some (_, .error (.chain (.txTooHigh ..))) => .fail
    | some (_, .error (.chain (.txMovedUnexpectedly ..))) => .unlock .tracker .done
    | some (_, .error (.unresolvableConflict _)) => .unlock .tracker .done
  else
    .lock .tracker (.use (fun s => { s with tracker := sendFailed s.tracker f }) fun _ => .unlock .tracker .done)

/-- bdk_cli_lib/src/lib.rs:574-607 `Send`, from the broadcast on -/
def sendTail (env : Env D Key Ak Sec XPrv Msg T) (f : InFlight) (o : Orders P T) (storeOk : Bool) : Code D P T :=
  .net (.broadcast f.tx) fun r => sendEnd env f o storeOk r.ok

/-- bdk_cli_lib/src/lib.rs:547-607 `Send` -/
def send (env : Env D Key Ak Sec XPrv Msg T) (luck : Luck) (value : Nat) (payee : Script) (algo : Algo) (storeOk : Bool)
    (o : Orders P T) (storeOk' : Bool) : Code D P T :=
  .lock .tracker <|
  .use (fun s => match createTx env luck s.tracker value payee algo with
    | some (t', _) => { s with tracker := t' }
    | none => s) fun s =>
  match createTx env luck s.tracker value payee algo with
  | none => .fail
  | some (_, .error _) => .unlock .tracker .done
  | some (_, .ok c) =>
    match c.change with
    | none => .unlock .tracker (sendTail env ⟨c.tx, none⟩ o storeOk')
    | some (additions, (k, i)) =>
      .lock .store <|
      .use (fun s => s.emit (Cli.store (.ofAdditions additions) storeOk).1) fun _ =>
      if (Cli.store (P := P) (T := T) (.ofAdditions additions) storeOk).2 then
        .use (fun s => { s with tracker := { s.tracker with txoutIndex := (s.tracker.txoutIndex.markUsed k i).1 } }) fun _ =>
        .unlock .store (.unlock .tracker (sendTail env ⟨c.tx, some (k, i)⟩ o storeOk'))
      else .unlock .store (.unlock .tracker .done)

/-- bdk_electrum_example/src/main.rs:235-244: the last section of `Scan` and `Sync` -/
def electrumApply (scan : KeychainScan Keychain P T) (o : Orders P T) (storeOk : Bool) : Code D P T :=
  .lock .tracker <| .use id fun s =>
  match s.tracker.determineChangeset scan o with
  | .panic => .fail
  | .err _ => .unlock .tracker .done
  | .ok cs =>
    .lock .store <|
    .use (fun s => s.emit (Cli.store cs storeOk).1) fun _ => .unlock .store <|
    if (Cli.store cs storeOk).2 then
      .use (fun s => match s.tracker.applyChangeset cs with | some t' => { s with tracker := t' } | none => s) fun s =>
      match s.tracker.applyChangeset cs with
      | some _ => .unlock .tracker .done
      | none => .fail
    else .unlock .tracker .done

/-- bdk_electrum_example/src/main.rs:230-233 fetching what is missing, without a lock -/
def electrumFetch (o : Orders P T) (storeOk : Bool) : Code D P T :=
  .net .fetch fun r => if r.ok then electrumApply r.scan o storeOk else .done

/-- bdk_electrum_example/src/main.rs:228 what is missing, under the lock -/
def electrumMissing (o : Orders P T) (storeOk : Bool) : Code D P T :=
  .lock .tracker <| .use id fun _ => .unlock .tracker <| electrumFetch o storeOk

/-- bdk_electrum_example/src/main.rs:114-122 and 210-223 the scan, without a lock -/
def electrumScan (o : Orders P T) (storeOk : Bool) : Code D P T :=
  .net .scan fun r => if r.ok then electrumMissing o storeOk else .done

/-- bdk_electrum_example/src/main.rs:84-246 `Scan` and `Sync`; first what to ask for is read under the lock -/
def electrum (o : Orders P T) (storeOk : Bool) : Code D P T :=
  .lock .tracker <| .use id fun _ => .unlock .tracker <| electrumScan o storeOk

/-- bdk_esplora_example/src/main.rs:122-129 (`Scan`, which takes the lock of the store first) and 229-236 (`Sync`, which takes it only
when there is something to store) -/
def esploraApply (storeFirst : Bool) (scan : KeychainScan Keychain P T) (o : Orders P T) (storeOk : Bool) : Code D P T :=
  let apply (k : Shared D P T → Code D P T) : Code D P T :=
    .use (fun s => match s.tracker.applyUpdate scan o with | some (t', _) => { s with tracker := t' } | none => s) k
  let write (cs : KeychainChangeSet Keychain P T) : Code D P T :=
    .use (fun s => s.emit (Cli.store cs storeOk).1) fun _ => .unlock .store (.unlock .tracker .done)
  .lock .tracker <|
  if storeFirst then
    .lock .store <| apply fun s => match s.tracker.applyUpdate scan o with
      | none => .fail
      | some (_, .error _) => .unlock .store (.unlock .tracker .done)
      | some (_, .ok cs) => write cs
  else apply fun s => match s.tracker.applyUpdate scan o with
      | none => .fail
      | some (_, .error _) => .unlock .tracker .done
      | some (_, .ok cs) => .lock .store (write cs)

/-- bdk_esplora_example/src/main.rs:108-119 and 217-226 the scan, without a lock -/
def esploraScan (storeFirst : Bool) (o : Orders P T) (storeOk : Bool) : Code D P T :=
  .net .scan fun r => if r.ok then esploraApply storeFirst r.scan o storeOk else .done

/-- bdk_esplora_example/src/main.rs:75-238 `Scan` and `Sync`; first what to ask for is read under the lock -/
def esplora (storeFirst : Bool) (o : Orders P T) (storeOk : Bool) : Code D P T :=
  .lock .tracker <| .use id fun _ => .unlock .tracker <| esploraScan storeFirst o storeOk

/-- the commands -/
inductive Command (P T : Type) [LinearOrder P] [LinearOrder T] where
  | address (cmd : AddressCmd) (storeOk : Bool)
  | print
  | send (luck : Luck) (value : Nat) (payee : Script) (algo : Algo) (storeOk : Bool) (o : Orders P T) (storeOk' : Bool)
  | electrum (o : Orders P T) (storeOk : Bool)
  | esplora (storeFirst : Bool) (o : Orders P T) (storeOk : Bool)

/-- what a thread does for a command -/
def Command.code (env : Env D Key Ak Sec XPrv Msg T) : Command P T → Code D P T
  | .address cmd ok => Locks.address cmd ok
  | .print => Locks.print
  | .send luck value payee algo ok o ok' => Locks.send env luck value payee algo ok o ok'
  | .electrum o ok => Locks.electrum o ok
  | .esplora f o ok => Locks.esplora f o ok

/-- a thread that executes commands one after the other -/
def codeOf (env : Env D Key Ak Sec XPrv Msg T) : List (Command P T) → Code D P T
  | [] => .done
  | c :: l => (c.code env).andThen (codeOf env l)

end
end Verif.Locks
