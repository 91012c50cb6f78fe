import Verif.Model.Codec
import Verif.Model.Persist

/-!
# Model of `KeychainStore` (bdk_file_store/src/file_store.rs)

A file is its content and a position.  Failing reads and seeks of an existing file are outside the model; failing writes are
a parameter of `append`.
-/

namespace Verif

/-- an open `std::fs::File` -/
structure File where
  bytes : Bytes
  pos : Nat
deriving DecidableEq, Repr

namespace File
/-- `Seek::seek(SeekFrom::Start(n))` -/
def seekTo (f : File) (n : Nat) : File := { f with pos := n }
/-- `Write::write_all`: overwrites from the position on, extends the file when needed -/
def write (f : File) (b : Bytes) : File :=
  ⟨f.bytes.take f.pos ++ List.replicate (f.pos - f.bytes.length) 0 ++ b ++ f.bytes.drop (f.pos + b.length), f.pos + b.length⟩
/-- `File::set_len` -/
def setLen (f : File) (n : Nat) : File :=
  { f with bytes := f.bytes.take n ++ List.replicate (n - f.bytes.length) 0 }
end File

/-- file_store.rs:18-21 `MAGIC_BYTES` -/
def magicBytes : Bytes := [98, 100, 107, 102, 115, 48, 48, 48, 48, 48, 48, 48]
/-- file_store.rs:18 `MAGIC_BYTES_LEN` -/
def magicLen : Nat := 12

/-- file_store.rs:172-178 `enum FileError` -/
inductive FileError where
  | io
  | invalidMagicBytes (b : Bytes)
deriving DecidableEq, Repr

/-- file_store.rs:202-208 `enum IterError` (`Bincode` split by the kind of the decode error) -/
inductive IterError where
  | eof
  | bad
deriving DecidableEq, Repr

/-- how an append fails: while writing, after that many bytes; at `stream_position`/`set_len`; at `sync_data` -/
inductive WriteFault where
  | none
  | write (k : Nat)
  | truncate
  | sync
deriving DecidableEq, Repr

/-- file_store.rs:26-29 `struct KeychainStore` -/
abbrev KeychainStore := File

namespace KeychainStore
variable {K D P T : Type} [LinearOrder K] [LinearOrder P] [LinearOrder T]

/-- file_store.rs:43-57 `new`: the file afterwards and the result -/
def new (file : File) : File × Except FileError KeychainStore :=
  if file.bytes.length < magicLen then ({ file with pos := file.bytes.length }, .error .io)
  else
    let f : File := { file with pos := magicLen }
    if file.bytes.take magicLen ≠ magicBytes then (f, .error (.invalidMagicBytes (file.bytes.take magicLen)))
    else (f, .ok f)

/-- file_store.rs:60-74 `new_from_path`: `disk` is the content of the file at that path, if there is one -/
def newFromPath (disk : Option Bytes) : File × Except FileError KeychainStore :=
  match disk with
  | some b => new ⟨b, 0⟩
  | none => new ((⟨[], 0⟩ : File).write magicBytes)

/-- file_store.rs:60-74: the content a crash inside `new_from_path` leaves when the file did not exist, `k` bytes of the magic
bytes having been written -/
def crashInCreate (k : Nat) : Bytes := ((⟨[], 0⟩ : File).write (magicBytes.take k)).bytes

/-- file_store.rs:245-279 `EntryIter::next` (`error_exit` is written but never read, so it is not part of the state) -/
def next (cd : Codec (KeychainChangeSet K P T)) (f : File) :
    File × Option (Except IterError (KeychainChangeSet K P T)) :=
  match cd.dec (f.bytes.drop f.pos) with
  | .ok c rest => ({ f with pos := f.pos + ((f.bytes.drop f.pos).length - rest.length) }, some (.ok c))
  | .eof => if f.pos = f.bytes.length then (f.seekTo f.bytes.length, none) else (f.seekTo f.pos, some (.error .eof))
  | .bad => (f.seekTo f.pos, some (.error .bad))

/-- a `for` loop over the iterator with `?` on each item: the entries, the error that ended it, and the file; `none` = the
loop did not end within the given number of iterations -/
def readLoop (cd : Codec (KeychainChangeSet K P T)) :
    Nat → File → Option (List (KeychainChangeSet K P T) × Option IterError × File)
  | 0, _ => none
  | n + 1, f =>
    match next cd f with
    | (f', none) => some ([], none, f')
    | (f', some (.error e)) => some ([], some e, f')
    | (f', some (.ok c)) => (readLoop cd n f').map (fun r => (c :: r.1, r.2))

/-- file_store.rs:85-92 `iter_changesets`, followed by the loop.  The bound on the iterations is never reached, see
`C42_read_terminates`. -/
def readAll (cd : Codec (KeychainChangeSet K P T)) (f : KeychainStore) :
    Option (List (KeychainChangeSet K P T) × Option IterError × File) :=
  readLoop cd (f.bytes.length + 1) (f.seekTo magicLen)

/-- file_store.rs:106-117 `aggregate_changeset` -/
def aggregateChangeset (cd : Codec (KeychainChangeSet K P T)) (f : KeychainStore) :
    Option (KeychainChangeSet K P T × Option IterError × File) :=
  (readAll cd f).map (fun r => (r.1.foldl .append .empty, r.2))

/-- file_store.rs:124-132 `load_into_keychain_tracker`; `none` = panic in the tracker -/
def loadInto [DescriptorOps D] [ChainPosition P] [AsTransaction T] (cd : Codec (KeychainChangeSet K P T))
    (f : KeychainStore) (t : Tracker K D P T) : Option (Tracker K D P T × Option IterError × File) := do
  let r ← readAll cd f
  let t' ← t.replay r.1
  return (t', r.2)

/-- file_store.rs:138-169 `append_changeset` -/
def append (cd : Codec (KeychainChangeSet K P T)) (f : KeychainStore) (c : KeychainChangeSet K P T) (fault : WriteFault) :
    KeychainStore × Except Unit Unit :=
  if c.isEmpty then (f, .ok ())
  else
    let e := cd.enc c
    match fault with
    | .write k => (f.write (e.take k), .error ())
    | .truncate => (f.write e, .error ())
    | .sync => ((f.write e).setLen (f.pos + e.length), if !c.derivationIndices.isEmpty then .error () else .ok ())
    | .none => ((f.write e).setLen (f.pos + e.length), .ok ())

/-- file_store.rs:146-150: the content of the disk when the process dies inside `append_changeset` after `k` bytes have been
written and before the truncation of line 160 -/
def crashInAppend (cd : Codec (KeychainChangeSet K P T)) (f : KeychainStore) (c : KeychainChangeSet K P T) (k : Nat) : Bytes :=
  (f.write ((cd.enc c).take k)).bytes

/-- bdk_file_store/src/lib.rs:9-33 `impl PersistBackend for KeychainStore`; the faults of the coming
writes are a queue in the state -/
def backend (cd : Codec (KeychainChangeSet K P T)) :
    PersistBackend (KeychainStore × List WriteFault) Unit (KeychainChangeSet K P T) :=
  ⟨fun s c => match s.2 with
    | [] => let r := append cd s.1 c .none; ((r.1, []), r.2)
    | x :: l => let r := append cd s.1 c x; ((r.1, l), r.2)⟩

/-- what a process that opens the file finds in it: `none` if it cannot be opened -/
def contents (cd : Codec (KeychainChangeSet K P T)) (disk : Bytes) :
    Option (List (KeychainChangeSet K P T) × Option IterError) :=
  match (newFromPath (some disk)).2 with
  | .error _ => none
  | .ok s => (readAll cd s).map (fun r => (r.1, r.2.1))

/-- the store of a process that has opened the file and read it up to the end or up to the first entry it cannot read -/
def openAndRead (cd : Codec (KeychainChangeSet K P T)) (disk : Bytes) : Option KeychainStore :=
  match (newFromPath (some disk)).2 with
  | .error _ => none
  | .ok s => (readAll cd s).map (fun r => r.2.2)

/-- the calls of a process that has opened the store, writes failing or not -/
inductive FaultyOp (K P T : Type) [LinearOrder K] [LinearOrder P] [LinearOrder T] where
  | next
  | read
  | append (c : KeychainChangeSet K P T) (x : WriteFault)

/-- the file after such calls -/
def runFaulty (cd : Codec (KeychainChangeSet K P T)) (f : KeychainStore) : List (FaultyOp K P T) → Option KeychainStore
  | [] => some f
  | .next :: ops => runFaulty cd (next cd f).1 ops
  | .read :: ops => do runFaulty cd (← readAll cd f).2.2 ops
  | .append c x :: ops => runFaulty cd (append cd f c x).1 ops

/-- the appends of a process that then dies, possibly in the middle of a last append -/
structure CrashSession (K P T : Type) [LinearOrder K] [LinearOrder P] [LinearOrder T] where
  appends : List (KeychainChangeSet K P T)
  crash : Option (KeychainChangeSet K P T × Nat)

/-- the content of the disk after a process has opened the file, read it, appended and died -/
def runCrash (cd : Codec (KeychainChangeSet K P T)) (disk : Bytes) (s : CrashSession K P T) : Option Bytes := do
  let f ← openAndRead cd disk
  let f := s.appends.foldl (fun f c => (append cd f c .none).1) f
  match s.crash with
  | none => some f.bytes
  | some (c, k) => some (crashInAppend cd f c k)

/-- the calls of a process that has opened the store -/
inductive Op (K P T : Type) [LinearOrder K] [LinearOrder P] [LinearOrder T] where
  | read
  | append (c : KeychainChangeSet K P T)

/-- calls that do not fail: `none` if one returns an error -/
def runOps (cd : Codec (KeychainChangeSet K P T)) (f : KeychainStore) : List (Op K P T) → Option KeychainStore
  | [] => some f
  | .read :: ops => do
    let r ← readAll cd f
    match r.2.1 with
    | some _ => none
    | none => runOps cd r.2.2 ops
  | .append c :: ops =>
    match append cd f c .none with
    | (_, .error _) => none
    | (f', .ok _) => runOps cd f' ops

/-- sessions of the program: open the file, read it, then any calls; the content of the disk at the end -/
def runSessions (cd : Codec (KeychainChangeSet K P T)) (disk : Option Bytes) : List (List (Op K P T)) → Option (Option Bytes)
  | [] => some disk
  | s :: ss =>
    match (newFromPath disk).2 with
    | .error _ => none
    | .ok f => do
      let f' ← runOps cd f (.read :: s)
      runSessions cd (some f'.bytes) ss

end KeychainStore
end Verif
