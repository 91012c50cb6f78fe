import Verif.Model.SharedFile

/-!
# Several stores on one file, one system call at a time

`Model/SharedFile` takes a whole `append_changeset` to be one step.  Here it is what the operating system sees of it: the encoder
writes the changeset in pieces (`bincode::encode_into_std_write` calls `write_all` for each primitive value, and the file is not
buffered; how the encoding is cut into pieces is left open), then the file is cut at the position of the store.  The calls of different
stores may come in any order.  `sync_data` does not change the content and is left out.
-/

namespace Verif
open KeychainStore
variable {K P T : Type} [LinearOrder K] [LinearOrder P] [LinearOrder T]

/-- one system call, made for the store number `h` -/
inductive SysCall where
  /-- file_store.rs:146-150: one `write` made by `encode_into_std_write`, at the position of the store -/
  | write (h : Nat) (b : Bytes)
  /-- file_store.rs:159-160 `set_len(stream_position)` -/
  | cut (h : Nat)
  /-- file_store.rs:85-92 `iter_changesets`, iterated up to the end or the first error (in one step, the content not changing meanwhile) -/
  | read (h : Nat)
deriving DecidableEq

/-- the store the call is made for -/
def SysCall.store : SysCall → Nat
  | .write h _ => h
  | .cut h => h
  | .read h => h

namespace SharedFile

/-- one system call; a store that is not open makes none -/
def call (cd : Codec (KeychainChangeSet K P T)) (s : SharedFile) (x : SysCall) : SharedFile :=
  match s.pos x.store with
  | none => s
  | some p =>
    match x with
    | .write h b => if b = [] then s else s.put h ((⟨s.bytes, p⟩ : File).write b)
    | .cut h => s.put h ((⟨s.bytes, p⟩ : File).setLen p)
    | .read h =>
      match readAll cd ⟨s.bytes, p⟩ with
      | none => s
      | some (_, _, f) => s.put h f

/-- system calls one after the other -/
def calls (cd : Codec (KeychainChangeSet K P T)) (s : SharedFile) (l : List SysCall) : SharedFile := l.foldl (fun s x => s.call cd x) s

end SharedFile

/-- file_store.rs:138-169: the system calls of one `append_changeset` of the store `h` whose encoding is written in these pieces -/
def appendCalls (h : Nat) (pieces : List Bytes) : List SysCall := pieces.map (.write h) ++ [.cut h]

end Verif
