import Verif.Model.FileStore

/-!
# Several stores on one file

`KeychainStore::new_from_path` takes no lock, so that nothing keeps two processes, or two stores of one process, from being open
on the same file at the same time.  Each store has a position of its own (each has opened the file for itself), the content of the
file is shared.  Every call is taken to be one step, with no fault; `Model/Overlap` has appends whose system calls overlap.
-/

namespace Verif
open KeychainStore
variable {K P T : Type} [LinearOrder K] [LinearOrder P] [LinearOrder T]

/-- the content of the file, and the position of each store that is open on it -/
structure SharedFile where
  bytes : Bytes
  pos : Nat → Option Nat

/-- the calls made on the store number `h` -/
inductive SharedOp (K P T : Type) [LinearOrder K] [LinearOrder P] [LinearOrder T] where
  /-- file_store.rs:60-74 `new_from_path`.  `absent`: the file did not exist yet when line 61 looked for it, although it does
  when it is opened, another process having created it meanwhile. -/
  | «open» (h : Nat) (absent : Bool)
  /-- file_store.rs:85-92 `iter_changesets`, iterated up to the end or the first error -/
  | read (h : Nat)
  /-- file_store.rs:138-169 `append_changeset` -/
  | append (h : Nat) (c : KeychainChangeSet K P T)

/-- what a call gives -/
inductive SharedResult (K P T : Type) [LinearOrder K] [LinearOrder P] [LinearOrder T] where
  | opened (r : Except FileError Unit)
  | entries (l : List (KeychainChangeSet K P T)) (e : Option IterError)
  | appended (r : Except Unit Unit)
  /-- there is no such store -/
  | closed

namespace SharedFile

/-- the store number `h` has the file as it sees it -/
def put (s : SharedFile) (h : Nat) (f : File) : SharedFile := ⟨f.bytes, fun i => if i = h then some f.pos else s.pos i⟩

/-- one call -/
def step (cd : Codec (KeychainChangeSet K P T)) (s : SharedFile) : SharedOp K P T → SharedFile × SharedResult K P T
  | .open h absent =>
    let f : File := if absent then (⟨s.bytes, 0⟩ : File).write magicBytes else ⟨s.bytes, 0⟩
    match KeychainStore.new f with
    | (f', .ok st) => (s.put h ⟨f'.bytes, st.pos⟩, .opened (.ok ()))
    | (f', .error e) => ({ s with bytes := f'.bytes }, .opened (.error e))
  | .read h =>
    match s.pos h with
    | none => (s, .closed)
    | some p =>
      match readAll cd ⟨s.bytes, p⟩ with
      | none => (s, .closed)
      | some (l, e, f) => (s.put h f, .entries l e)
  | .append h c =>
    match s.pos h with
    | none => (s, .closed)
    | some p =>
      let r := KeychainStore.append cd ⟨s.bytes, p⟩ c .none
      (s.put h r.1, .appended r.2)

/-- calls one after the other -/
def run (cd : Codec (KeychainChangeSet K P T)) (s : SharedFile) (ops : List (SharedOp K P T)) : SharedFile :=
  ops.foldl (fun s op => (s.step cd op).1) s

/-- a file on which no store is open -/
def closed (b : Bytes) : SharedFile := ⟨b, fun _ => none⟩

end SharedFile
end Verif
