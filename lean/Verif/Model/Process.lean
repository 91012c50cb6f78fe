import Verif.Model.Cli
import Verif.Model.FileStore

/-!
# Model of whole runs of the example programs, down to the bytes of the database file

`Verif/Model/Cli.lean` models the commands with a database that is a list of changesets, `Verif/Model/FileStore.lean` models the
file.  Here they are put together: one run of a program is `init`, one command, and the end of the program, be it the end of
`main`, a panic, or a crash anywhere, also in the middle of a write.
-/

namespace Verif.Cli
open Verif Verif.CoinSelect Verif.Planner KeychainStore

variable {D Key Ak Sec XPrv Msg T P : Type} [DescriptorOps D] [LinearOrder P] [ChainPosition P] [LinearOrder T] [AsTransaction T]
  [DecidableEq Key]

/-- lib.rs:49-72 `enum Commands` of bdk_cli_lib, bdk_electrum_example/src/main.rs:14-41 and
bdk_esplora_example/src/main.rs:14-41 `Scan` and `Sync`.  What comes from outside is part of the command: the outcome of
`broadcast`, the scan that was received.  `print` stands for the commands that only print (`Balance`, `Txout`) or fail before
they change anything. -/
inductive Command (P T : Type) [LinearOrder P] [LinearOrder T] where
  | print
  | address (cmd : AddressCmd)
  | send (luck : Luck) (value : Nat) (payee : Script) (algo : Algo) (sent : Bool) (o : Orders P T)
  | syncElectrum (scan : KeychainScan Keychain P T) (o : Orders P T)
  | syncEsplora (scan : KeychainScan Keychain P T) (o : Orders P T)

/-- lib.rs:549-607 `Send`, both halves: what it does to the outside, and the tracker at the end, `none` after a panic.
`ok1` and `ok2` are what the database says to the first and to the second write. -/
def runSend (env : Env D Key Ak Sec XPrv Msg T) (t : Tracker Keychain D P T) (luck : Luck) (value : Nat) (payee : Script)
    (algo : Algo) (sent : Bool) (o : Orders P T) (ok1 ok2 : Bool) : List (Event P T) × Option (Tracker Keychain D P T) :=
  match sendPrepare env luck t value payee algo ok1 with
  | none => ([], none)
  | some (t1, es, .error _) => (es, some t1)
  | some (t1, es, .ok f) =>
    if sent then
      match sendSucceeded env t1 f o ok2 with
      | none => (es ++ [.broadcast f.tx true], none)
      | some (t2, es2, _) => (es ++ [.broadcast f.tx true] ++ es2, some t2)
    else (es ++ [.broadcast f.tx false], some (sendFailed t1 f))

/-- bdk_electrum_example/src/main.rs:235-243, as `syncElectrum`, but with the write that precedes a panic of
`apply_changeset` -/
def runSyncElectrum (t : Tracker Keychain D P T) (scan : KeychainScan Keychain P T) (o : Orders P T) (ok : Bool) :
    List (Event P T) × Option (Tracker Keychain D P T) :=
  match t.determineChangeset scan o with
  | .panic => ([], none)
  | .err _ => ([], some t)
  | .ok cs =>
    let s := store cs ok
    (s.1, if s.2 then t.applyChangeset cs else some t)

/-- lib.rs:524-613 `handle_commands` and the `Scan`/`Sync` arms of the two programs -/
def runCommand (env : Env D Key Ak Sec XPrv Msg T) (t : Tracker Keychain D P T) (cmd : Command P T) (ok1 ok2 : Bool) :
    List (Event P T) × Option (Tracker Keychain D P T) :=
  match cmd with
  | .print => ([], some t)
  | .address c =>
    match runAddressCmd t c ok1 with
    | none => ([], none)
    | some (t', es, _) => (es, some t')
  | .send luck value payee algo sent o => runSend env t luck value payee algo sent o ok1 ok2
  | .syncElectrum scan o => runSyncElectrum t scan o ok1
  | .syncEsplora scan o =>
    match syncEsplora t scan o ok1 with
    | none => ([], none)
    | some (t', es) => (es, some t')

/-- how `init` ends -/
inductive Started (D P T : Type) [LinearOrder P] [LinearOrder T] where
  /-- it returns the error of `KeychainStore::new_from_path` -/
  | refused (e : FileError)
  | panicked
  /-- the program goes on, with what could be read of the file and the error that ended the reading, if any -/
  | running (t : Tracker Keychain D P T) (e : Option IterError) (db : KeychainStore)

/-- lib.rs:616-667 `init`: the content of the file afterwards, and how it ends.  An error while loading is printed, and the
program goes on with what was loaded.  Parsing the arguments and the descriptors is not modelled. -/
def start [DecidableEq D] (cd : Codec (KeychainChangeSet Keychain P T)) (cpLimit : Nat) (external : D) (internal : Option D)
    (disk : Option Bytes) : Option Bytes × Started D P T :=
  match initTracker cpLimit external internal with
  | none => (disk, .panicked)
  | some base =>
    match newFromPath disk with
    | (f, .error e) => (some f.bytes, .refused e)
    | (_, .ok s) =>
      match loadInto cd s base with
      | none => (some s.bytes, .panicked)
      | some (t, e, f) => (some f.bytes, .running t e f)

/-- The effects of a command, done to the file.  A write that succeeds is an `append` that returns `Ok`; one that does not is
whatever any fault, or a crash inside of `append_changeset`, leaves in the file.  Printing and the network leave the file
alone. -/
inductive Effects (cd : Codec (KeychainChangeSet Keychain P T)) : KeychainStore → List (Event P T) → KeychainStore → Prop where
  | nil {f} : Effects cd f [] f
  | stored {f f' f'' c es} (x : WriteFault) : append cd f c x = (f', .ok ()) → Effects cd f' es f'' → Effects cd f (.stored c :: es) f''
  | failed {f f' c es} (x : WriteFault) : Effects cd (append cd f c x).1 es f' → Effects cd f (.storeFailed c :: es) f'
  | shown {f f' k i spk es} : Effects cd f es f' → Effects cd f (.shown k i spk :: es) f'
  | broadcast {f f' tx ok es} : Effects cd f es f' → Effects cd f (.broadcast tx ok :: es) f'

/-- what is left of the effects of a command when the program may die between two of them, or inside of a write -/
inductive Cut : List (Event P T) → List (Event P T) → Prop where
  | between {es pre} : pre <+: es → Cut es pre
  | writing {pre c post} : Cut (pre ++ .stored c :: post) (pre ++ [.storeFailed c])

/-- one run of a program: the content of the file before, what was seen of the run, the content of the file after -/
inductive Process [DecidableEq D] (env : Env D Key Ak Sec XPrv Msg T) (cd : Codec (KeychainChangeSet Keychain P T)) (external : D)
    (internal : Option D) : Option Bytes → List (Event P T) → Option Bytes → Prop where
  /-- it dies before it has done anything, or while it creates the file -/
  | early {disk} : Process env cd external internal disk [] disk
  | creating (k : Nat) : Process env cd external internal none [] (some (crashInCreate k))
  /-- `init` does not return -/
  | stopped {disk disk'} (cp : Nat) (s : Started D P T) : start cd cp external internal disk = (disk', s) →
      Process env cd external internal disk [] disk'
  /-- a command, up to its end or up to the death of the program -/
  | command {disk disk' es} (cp : Nat) (t : Tracker Keychain D P T) (e : Option IterError) (f f' : KeychainStore)
      (cmd : Command P T) (ok1 ok2 : Bool) : start cd cp external internal disk = (disk', .running t e f) →
      Cut (runCommand env t cmd ok1 ok2).1 es → Effects cd f es f' → Process env cd external internal disk es (some f'.bytes)

/-- any number of runs, one after the other, from a given content of the file: everything that was seen, and the content of the
file at the end -/
inductive History [DecidableEq D] (env : Env D Key Ak Sec XPrv Msg T) (cd : Codec (KeychainChangeSet Keychain P T)) (external : D)
    (internal : Option D) (disk0 : Option Bytes) : List (Event P T) → Option Bytes → Prop where
  | init : History env cd external internal disk0 [] disk0
  | run {tr es disk disk'} : History env cd external internal disk0 tr disk → Process env cd external internal disk es disk' →
      History env cd external internal disk0 (tr ++ es) disk'

end Verif.Cli
