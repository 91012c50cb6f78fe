import Verif.Model.Tracker

/-!
# Model of the byte encoding used by the file store

`bincode` 2 (standard configuration: variable length little endian integers, no size limit) through `serde`, as used by
bdk_file_store/src/file_store.rs:146-150 and 250, for the derived `serde` implementations of the changesets.
The dependency itself is not part of /repo; this is a model of its documented format.  The encodings of the keychain type
`K`, of the position `P`, of the transaction `T` and of scripts are parameters.
-/

namespace Verif

/-- file contents -/
abbrev Bytes := List UInt8

/-- Result of decoding one value from a reader positioned at the start of the given bytes: the value and the unread bytes,
`DecodeError::Io` with kind `UnexpectedEof`, or any other decode error -/
inductive DecRes (α : Type) where
  | ok (a : α) (rest : Bytes)
  | eof
  | bad
deriving DecidableEq, Repr

namespace DecRes
/-- continue decoding after a value was read -/
def bind {α β : Type} (r : DecRes α) (k : α → Bytes → DecRes β) : DecRes β :=
  match r with
  | ok a rest => k a rest
  | eof => eof
  | bad => bad
end DecRes

/-- an encoder and a decoder -/
structure Codec (α : Type) where
  enc : α → Bytes
  dec : Bytes → DecRes α

/-- What the file store needs of the encoding, for the values in `dom`: decoding inverts encoding and leaves the following
bytes unread; a proper prefix of an encoding ends early; a successful decode depends on the bytes it consumed only. -/
structure Codec.Lawful {α : Type} (c : Codec α) (dom : α → Prop) : Prop where
  round : ∀ a r, dom a → c.dec (c.enc a ++ r) = .ok a r
  torn : ∀ a p q, dom a → p ++ q = c.enc a → q ≠ [] → c.dec p = .eof
  loc : ∀ bs a r, c.dec bs = .ok a r → ∃ u, bs = u ++ r ∧ ∀ r', c.dec (u ++ r') = .ok a r'

namespace Codec

/-- `n` as `k` little endian bytes -/
def leBytes : Nat → Nat → Bytes
  | 0, _ => []
  | k + 1, n => UInt8.ofNat n :: leBytes k (n / 256)

/-- read `k` little endian bytes -/
def readLE : Nat → Bytes → DecRes Nat
  | 0, bs => .ok 0 bs
  | _ + 1, [] => .eof
  | k + 1, b :: bs => (readLE k bs).bind (fun n rest => .ok (b.toNat + 256 * n) rest)

/-- bincode variable length unsigned integer: one byte below 251, else a marker and 2, 4 or 8 bytes.  A `u32` reader rejects
the marker of 8 bytes. -/
def varint (wide : Bool) : Codec Nat where
  enc n := if n < 251 then [UInt8.ofNat n]
    else if n < 2 ^ 16 then 251 :: leBytes 2 n
    else if n < 2 ^ 32 then 252 :: leBytes 4 n
    else 253 :: leBytes 8 n
  dec
    | [] => .eof
    | b :: bs =>
      if b.toNat < 251 then .ok b.toNat bs
      else if b.toNat = 251 then readLE 2 bs
      else if b.toNat = 252 then readLE 4 bs
      else if b.toNat = 253 && wide then readLE 8 bs
      else .bad

/-- largest number of each width plus one -/
def intLimit (wide : Bool) : Nat := if wide then 2 ^ 64 else 2 ^ 32

/-- two fields, one after the other -/
def pair {α β : Type} (a : Codec α) (b : Codec β) : Codec (α × β) where
  enc x := a.enc x.1 ++ b.enc x.2
  dec bs := (a.dec bs).bind (fun x rest => (b.dec rest).bind (fun y rest => .ok (x, y) rest))

/-- a type represented by another one; `g` rejects the values that represent nothing -/
def conv {α β : Type} (f : β → α) (g : α → Option β) (c : Codec α) : Codec β where
  enc x := c.enc (f x)
  dec bs := (c.dec bs).bind (fun y rest => match g y with | some x => .ok x rest | none => .bad)

/-- read `n` values -/
def readN {α : Type} (c : Codec α) : Nat → Bytes → DecRes (List α)
  | 0, bs => .ok [] bs
  | n + 1, bs => (c.dec bs).bind (fun x rest => (readN c n rest).bind (fun l rest => .ok (x :: l) rest))

/-- a sequence: its length as `u64`, then its elements -/
def list {α : Type} (c : Codec α) : Codec (List α) where
  enc l := (varint true).enc l.length ++ (l.map c.enc).flatten
  dec bs := ((varint true).dec bs).bind (fun n rest => readN c n rest)

/-- `Option`: a byte 0 or 1 and the value -/
def option {α : Type} (c : Codec α) : Codec (Option α) where
  enc
    | none => [0]
    | some a => 1 :: c.enc a
  dec
    | [] => .eof
    | b :: bs => if b = 0 then .ok none bs
      else if b = 1 then (c.dec bs).bind (fun a rest => .ok (some a) rest)
      else .bad

/-- `BTreeMap`: a sequence of key and value; decoding inserts one by one -/
def omap {κ ν : Type} [LinearOrder κ] (k : Codec κ) (v : Codec ν) : Codec (OMap κ ν) :=
  conv (fun m => m.entries) (fun l => some (OMap.ofList l)) (list (pair k v))

/-- `BTreeSet` -/
def oset {κ : Type} [LinearOrder κ] (k : Codec κ) : Codec (OSet κ) :=
  conv (fun s => OSet.toList s) (fun l => some (OSet.ofList l)) (list k)

/-- the 32 bytes of a hash, preceded by their number (`serialize_bytes` of `bitcoin_hashes` in binary formats) -/
def hash : Codec Nat where
  enc n := 32 :: leBytes 32 n
  dec
    | [] => .eof
    | b :: bs => if b = 32 then readLE 32 bs else .bad

/-- a transaction id (the bytes of the number in the opposite order of the one used for comparison; the order of bytes
within a hash does not matter here) -/
def txid : Codec Txid :=
  conv (fun t => t.val) (fun n => if h : n < 2 ^ 256 then some ⟨n, h⟩ else none) hash

/-- `bitcoin::OutPoint` -/
def outpoint : Codec OutPoint :=
  conv (fun o => (o.txid, o.vout.val))
    (fun x => if h : x.2 < 2 ^ 32 then some ⟨x.1, ⟨x.2, h⟩⟩ else none) (pair txid (varint false))

/-- `bitcoin::TxOut` over an encoding of scripts -/
def txout (s : Codec Script) : Codec TxOut :=
  conv (fun o => (o.value, o.spk)) (fun x => some ⟨x.1, x.2⟩) (pair (varint true) s)

/-- chain_data.rs:9-18 `TxHeight`, derived: the variant number, then the payload -/
def txHeight : Codec TxHeight where
  enc
    | .confirmed h => 0 :: (varint false).enc h
    | .unconfirmed => [1]
  dec bs := ((varint false).dec bs).bind (fun v rest =>
    if v = 0 then ((varint false).dec rest).bind (fun h rest => .ok (.confirmed h) rest)
    else if v = 1 then .ok .unconfirmed rest
    else .bad)

/-- chain_data.rs:74-83 `ConfirmationTime`, derived -/
def confirmationTime : Codec ConfirmationTime where
  enc
    | .confirmed h t => 0 :: ((varint false).enc h ++ (varint true).enc t.val)
    | .unconfirmed => [1]
  dec bs := ((varint false).dec bs).bind (fun v rest =>
    if v = 0 then (pair (varint false) (varint true)).dec rest |>.bind (fun x rest =>
      if h : x.2 < 2 ^ 64 then .ok (.confirmed x.1 ⟨x.2, h⟩) rest else .bad)
    else if v = 1 then .ok .unconfirmed rest
    else .bad)

/-- `KeychainChangeSet` (keychain.rs:129-149) with its parts `DerivationAdditions` (keychain.rs:45-57), `ChangeSet`
(sparse_chain.rs:897-909) and `Additions` (tx_graph.rs:442-458): the fields in the order of declaration -/
def changeset {K P T : Type} [LinearOrder K] [LinearOrder P] [LinearOrder T]
    (k : Codec K) (p : Codec P) (t : Codec T) (s : Codec Script) : Codec (KeychainChangeSet K P T) :=
  conv (fun c => (c.derivationIndices, ((c.chainGraph.chain.checkpoints, c.chainGraph.chain.txids),
      (c.chainGraph.graph.tx, c.chainGraph.graph.txout))))
    (fun x => some ⟨x.1, ⟨⟨x.2.1.1, x.2.1.2⟩, ⟨x.2.2.1, x.2.2.2⟩⟩⟩)
    (pair (omap k (varint false))
      (pair (pair (omap (varint false) (option hash)) (omap txid (option p)))
        (pair (oset t) (omap outpoint (txout s)))))

end Codec
end Verif
