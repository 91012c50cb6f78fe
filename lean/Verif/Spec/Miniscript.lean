import Verif.Model.Plan
import Verif.Spec.CoinSelect

/-!
# What spending a tapscript leaf means, independently of the planner

A small interpreter of the tapscript opcodes that miniscript uses (BIP342, BIP65, BIP112), the translation of
miniscript fragments to those opcodes, and miniscript's type rules (https://bitcoin.sipa.be/miniscript/), for the
fragments the planner supports.
-/

namespace Verif.Tapscript
open Planner (Bytes Ms)

/-- single opcodes; `<n> CHECKLOCKTIMEVERIFY` and `<n> CHECKSEQUENCEVERIFY` are one item each -/
inductive Op where
  | push (b : Bytes)
  | dup | swap | toAlt | fromAlt | verify | equal | equalVerify | size | zeroNotEqual | boolAnd
  | hash160 | sha256 | hash256 | ripemd160
  | checkSig
  | cltv (n : Nat)
  | csv (n : Nat)
deriving DecidableEq, Repr

/-- scripts with structured conditionals -/
inductive Script where
  | skip
  | op (o : Op)
  | seq (a b : Script)
  /-- `IF a ELSE b ENDIF` -/
  | ite (a b : Script)
deriving DecidableEq, Repr

infixr:67 " ;; " => Script.seq

/-- the spending transaction as far as a script can see it -/
structure Ctx where
  version : Nat
  lockTime : Nat
  /-- sequence number of the spending input -/
  sequence : Nat
  /-- `sigOk key sig`: a valid Schnorr signature of this transaction under the 32-byte key -/
  sigOk : Bytes → Bytes → Bool
  hash160 : Bytes → Bytes
  sha256 : Bytes → Bytes
  hash256 : Bytes → Bytes
  ripemd160 : Bytes → Bytes

/-- little-endian digits (numbers below 2⁴⁰) -/
def leDigits : Nat → Nat → Bytes
  | 0, _ => []
  | f + 1, n => if n = 0 then [] else n % 256 :: leDigits f (n / 256)

/-- script number: little endian, with a further zero byte if the sign bit would be set -/
def scriptNum (n : Nat) : Bytes :=
  let d := leDigits 5 n
  if d.getLastD 0 ≥ 128 then d ++ [0] else d

/-- is a stack element true: some byte is not zero, a lone sign bit in the last byte not counting -/
def truthy (e : Bytes) : Bool :=
  match e.reverse with
  | [] => false
  | l :: rest => rest.any (· ≠ 0) || (l ≠ 0 && l ≠ 128)

def ofBool (b : Bool) : Bytes := if b then [1] else []

/-- BIP65 -/
def cltvOk (c : Ctx) (n : Nat) : Bool :=
  (decide (n < 500000000) == decide (c.lockTime < 500000000)) && decide (n ≤ c.lockTime)
    && decide (c.sequence ≠ 0xffffffff)

/-- the bits of a sequence number that matter for relative lock times: bit 22 and the lowest 16 -/
def seqMasked (s : Nat) : Nat := s / 2 ^ 22 % 2 * 2 ^ 22 + s % 2 ^ 16

/-- BIP112/BIP68: the sequence number `s` (of an input of a version 2 transaction, or the age of a coin expressed as such)
meets the relative lock time `n` -/
def seqMeets (s n : Nat) : Bool :=
  decide (s / 2 ^ 31 % 2 = 0) && decide (s / 2 ^ 22 % 2 = n / 2 ^ 22 % 2)
    && decide (seqMasked n ≤ seqMasked s)

/-- BIP112 -/
def csvOk (c : Ctx) (n : Nat) : Bool :=
  decide (n / 2 ^ 31 % 2 = 1) || (decide (2 ≤ c.version) && seqMeets c.sequence n)

/-- main stack (top first) and alternative stack -/
abbrev State := List Bytes × List Bytes

/-- one opcode; `none` is a failed script -/
def step (c : Ctx) : Op → State → Option State
  | .push b, (st, alt) => some (b :: st, alt)
  | .dup, (x :: st, alt) => some (x :: x :: st, alt)
  | .swap, (x :: y :: st, alt) => some (y :: x :: st, alt)
  | .toAlt, (x :: st, alt) => some (st, x :: alt)
  | .fromAlt, (st, x :: alt) => some (x :: st, alt)
  | .verify, (x :: st, alt) => if truthy x then some (st, alt) else none
  | .equal, (x :: y :: st, alt) => some (ofBool (x = y) :: st, alt)
  | .equalVerify, (x :: y :: st, alt) => if x = y then some (st, alt) else none
  | .size, (x :: st, alt) => some (scriptNum x.length :: x :: st, alt)
  | .zeroNotEqual, (x :: st, alt) => if x.length ≤ 4 then some (ofBool (truthy x) :: st, alt) else none
  | .boolAnd, (x :: y :: st, alt) =>
    if x.length ≤ 4 ∧ y.length ≤ 4 then some (ofBool (truthy x && truthy y) :: st, alt) else none
  | .hash160, (x :: st, alt) => some (c.hash160 x :: st, alt)
  | .sha256, (x :: st, alt) => some (c.sha256 x :: st, alt)
  | .hash256, (x :: st, alt) => some (c.hash256 x :: st, alt)
  | .ripemd160, (x :: st, alt) => some (c.ripemd160 x :: st, alt)
  | .checkSig, (key :: sig :: st, alt) =>
    if key = [] then none
    else if sig = [] then some ([] :: st, alt)
    else if key.length = 32 then (if c.sigOk key sig then some ([1] :: st, alt) else none)
    else some ([1] :: st, alt)
  | .cltv n, (st, alt) => if cltvOk c n then some (scriptNum n :: st, alt) else none
  | .csv n, (st, alt) => if csvOk c n then some (scriptNum n :: st, alt) else none
  | _, _ => none

/-- run a script; the argument of `IF` must be empty or the single byte 1 -/
def exec (c : Ctx) : Script → State → Option State
  | .skip, s => some s
  | .op o, s => step c o s
  | .seq a b, s =>
    match exec c a s with
    | none => none
    | some s' => exec c b s'
  | .ite a b, s =>
    match s with
    | ([1] :: st, alt) => exec c a (st, alt)
    | ([] :: st, alt) => exec c b (st, alt)
    | _ => none

/-- a witness stack (bottom first, as it stands in the transaction) unlocks the script: the run ends with a single true
element -/
def Unlocks (c : Ctx) (s : Script) (witness : List Bytes) : Prop :=
  ∃ e alt, exec c s (witness.reverse, []) = some ([e], alt) ∧ truthy e = true

/-! ### miniscript -/

/-- the four basic types -/
inductive Base where
  | B | V | K | W
deriving DecidableEq, Repr

/-- type with the modifiers used by the rules below: `z` takes no argument, `o` takes one, `n` its top argument is never
empty in a satisfaction -/
structure Ty where
  base : Base
  z : Bool
  o : Bool
  n : Bool
deriving DecidableEq, Repr

variable {Key : Type}

/-- type rules of miniscript; `none`: ill-typed, or not supported by the planner -/
def typeOf : Ms Key → Option Ty
  | .tru => some ⟨.B, true, false, false⟩
  | .fls => some ⟨.B, true, false, false⟩
  | .pkK _ => some ⟨.K, false, true, true⟩
  | .pkH _ => some ⟨.K, false, false, true⟩
  | .after n => if 0 < n ∧ n < 2 ^ 31 then some ⟨.B, true, false, false⟩ else none
  | .older n => if 0 < n ∧ n < 2 ^ 31 then some ⟨.B, true, false, false⟩ else none
  | .sha256 _ => some ⟨.B, false, true, true⟩
  | .hash256 _ => some ⟨.B, false, true, true⟩
  | .ripemd160 _ => some ⟨.B, false, true, true⟩
  | .hash160 _ => some ⟨.B, false, true, true⟩
  | .alt x => match typeOf x with
    | some ⟨.B, _, _, _⟩ => some ⟨.W, false, false, false⟩
    | _ => none
  | .swap x => match typeOf x with
    | some ⟨.B, _, true, _⟩ => some ⟨.W, false, false, false⟩
    | _ => none
  | .check x => match typeOf x with
    | some ⟨.K, _, o, n⟩ => some ⟨.B, false, o, n⟩
    | _ => none
  | .dupIf x => match typeOf x with
    | some ⟨.V, true, _, _⟩ => some ⟨.B, false, true, true⟩
    | _ => none
  | .verify x => match typeOf x with
    | some ⟨.B, z, o, n⟩ => some ⟨.V, z, o, n⟩
    | _ => none
  | .nonZero x => match typeOf x with
    | some ⟨.B, _, o, true⟩ => some ⟨.B, false, o, true⟩
    | _ => none
  | .zeroNotEqual x => match typeOf x with
    | some ⟨.B, z, o, n⟩ => some ⟨.B, z, o, n⟩
    | _ => none
  | .andV x y => match typeOf x, typeOf y with
    | some ⟨.V, zx, ox, nx⟩, some ⟨b, zy, oy, ny⟩ =>
      if b = .W then none else some ⟨b, zx && zy, (zx && oy) || (zy && ox), nx || (zx && ny)⟩
    | _, _ => none
  | .andB x y => match typeOf x, typeOf y with
    | some ⟨.B, zx, ox, nx⟩, some ⟨.W, zy, oy, ny⟩ =>
      some ⟨.B, zx && zy, (zx && oy) || (zy && ox), nx || (zx && ny)⟩
    | _, _ => none
  | .orI x y => match typeOf x, typeOf y with
    | some ⟨b, zx, _, _⟩, some ⟨b', zy, _, _⟩ =>
      if b = b' ∧ b ≠ .W then some ⟨b, false, zx && zy, false⟩ else none
    | _, _ => none
  | _ => none

/-- translation of miniscript to script; `xonly` serializes a key to 32 bytes, `h160` is the hash used for `pk_h` -/
def compile (xonly : Key → Bytes) (h160 : Bytes → Bytes) : Ms Key → Script
  | .tru => .op (.push [1])
  | .fls => .op (.push [])
  | .pkK k => .op (.push (xonly k))
  | .pkH k => .op .dup ;; .op .hash160 ;; .op (.push (h160 (xonly k))) ;; .op .equalVerify
  | .rawPkH h => .op .dup ;; .op .hash160 ;; .op (.push h) ;; .op .equalVerify
  | .after n => .op (.cltv n)
  | .older n => .op (.csv n)
  | .sha256 h =>
    .op .size ;; .op (.push (scriptNum 32)) ;; .op .equalVerify ;; .op .sha256 ;; .op (.push h) ;; .op .equal
  | .hash256 h =>
    .op .size ;; .op (.push (scriptNum 32)) ;; .op .equalVerify ;; .op .hash256 ;; .op (.push h) ;; .op .equal
  | .ripemd160 h =>
    .op .size ;; .op (.push (scriptNum 32)) ;; .op .equalVerify ;; .op .ripemd160 ;; .op (.push h) ;; .op .equal
  | .hash160 h =>
    .op .size ;; .op (.push (scriptNum 32)) ;; .op .equalVerify ;; .op .hash160 ;; .op (.push h) ;; .op .equal
  | .alt x => .op .toAlt ;; compile xonly h160 x ;; .op .fromAlt
  | .swap x => .op .swap ;; compile xonly h160 x
  | .check x => compile xonly h160 x ;; .op .checkSig
  | .dupIf x => .op .dup ;; .ite (compile xonly h160 x) .skip
  | .verify x => compile xonly h160 x ;; .op .verify
  | .nonZero x => .op .size ;; .op .zeroNotEqual ;; .ite (compile xonly h160 x) .skip
  | .zeroNotEqual x => compile xonly h160 x ;; .op .zeroNotEqual
  | .andV x y => compile xonly h160 x ;; compile xonly h160 y
  | .andB x y => compile xonly h160 x ;; compile xonly h160 y ;; .op .boolAnd
  | .orI x y => .ite (compile xonly h160 x) (compile xonly h160 y)
  -- fragments the planner does not support (it panics on them): a script that always fails
  | _ => .op .fromAlt

end Verif.Tapscript

namespace Verif.Planner.Spec
open Verif.Tapscript

variable {Key Ak : Type}

/-- Everything in the fragment is something the planner supports. -/
def Supported : Ms Key → Prop
  | .alt x | .swap x | .check x | .dupIf x | .verify x | .nonZero x | .zeroNotEqual x => Supported x
  | .andV x y | .andB x y | .orI x y => Supported x ∧ Supported y
  | .andOr _ _ _ | .orB _ _ | .orD _ _ | .orC _ _ | .thresh _ _ _ | .multi _ _ | .multiA _ _ => False
  | _ => True

/-- The owner of the assets can meet the policy: some key of hers derives each key needed, she has the preimages, the
transaction may be delayed enough, the coin is old enough.  (`rawPkH` is not plannable: the key behind the hash is not
known.) -/
def Affordable (canDerive : Ak → Key → Option Path) (a : Assets Ak) : Ms Key → Prop
  | .tru => True
  | .pkK k => ∃ ak ∈ a.keys, (canDerive ak k).isSome
  | .pkH k => ∃ ak ∈ a.keys, (canDerive ak k).isSome
  | .after n => ∃ m, a.maxLocktime = some m ∧ m.sameUnit (.ofConsensus n) ∧ n ≤ m.toConsensus
  | .older s => ∃ age, a.txoAge = some age ∧ seqMeets age s
  | .sha256 h => h ∈ a.sha256
  | .hash256 h => h ∈ a.hash256
  | .ripemd160 h => h ∈ a.ripemd160
  | .hash160 h => h ∈ a.hash160
  | .alt x | .swap x | .check x | .dupIf x | .verify x | .nonZero x | .zeroNotEqual x => Affordable canDerive a x
  | .andV x y | .andB x y => Affordable canDerive a x ∧ Affordable canDerive a y
  | .orI x y => Affordable canDerive a x ∨ Affordable canDerive a y
  | _ => False

/-- a property of every absolute lock time in the expression -/
def Afters (P : Nat → Prop) : Ms Key → Prop
  | .after n => P n
  | .alt x | .swap x | .check x | .dupIf x | .verify x | .nonZero x | .zeroNotEqual x => Afters P x
  | .andV x y | .andB x y | .orI x y => Afters P x ∧ Afters P y
  | _ => True

/-- a property of every relative lock time in the expression -/
def Olders (P : Nat → Prop) : Ms Key → Prop
  | .older n => P n
  | .alt x | .swap x | .check x | .dupIf x | .verify x | .nonZero x | .zeroNotEqual x => Olders P x
  | .andV x y | .andB x y | .orI x y => Olders P x ∧ Olders P y
  | _ => True

/-- a sequence number with no bit set outside those BIP68 gives a meaning to -/
def CleanSeq (s : Nat) : Prop := s = seqMasked s

/-- no argument is ever needed: only lock times -/
def NoArgs : Ms Key → Prop
  | .tru | .after _ | .older _ => True
  | .alt x | .swap x | .check x | .verify x | .nonZero x | .zeroNotEqual x => NoArgs x
  | .andV x y | .andB x y => NoArgs x ∧ NoArgs y
  | _ => False

/-- in every conjunction, one side at least needs no argument -/
def OneSided : Ms Key → Prop
  | .alt x | .swap x | .check x | .dupIf x | .verify x | .nonZero x | .zeroNotEqual x => OneSided x
  | .andV x y | .andB x y => (NoArgs x ∨ NoArgs y) ∧ OneSided x ∧ OneSided y
  | .orI x y => OneSided x ∧ OneSided y
  | _ => True

/-- the expression has no `pk_h` -/
def NoPkH : Ms Key → Prop
  | .pkH _ => False
  | .alt x | .swap x | .check x | .dupIf x | .verify x | .nonZero x | .zeroNotEqual x => NoPkH x
  | .andV x y | .andB x y | .orI x y => NoPkH x ∧ NoPkH y
  | _ => True

/-- the collected signatures and preimages are genuine -/
structure Genuine (xonly : Key → Bytes) (c : Ctx) (m : Material Key) : Prop where
  sig_len : ∀ k s, m.schnorrSigs k = some s → s.sig.length = 64
  sig_ok : ∀ k s, m.schnorrSigs k = some s → c.sigOk (xonly k) s.toVec = true
  sha256 : ∀ h x, m.sha256 h = some x → x.length = 32 ∧ c.sha256 x = h
  hash256 : ∀ h x, m.hash256 h = some x → x.length = 32 ∧ c.hash256 x = h
  ripemd160 : ∀ h x, m.ripemd160 h = some x → x.length = 32 ∧ c.ripemd160 x = h
  hash160 : ∀ h x, m.hash160 h = some x → x.length = 32 ∧ c.hash160 x = h

/-- the transaction is as the plan asks: version, lock time and sequence -/
structure Meets (c : Ctx) (version : Option Nat) (lt : Option LockTime) (sq : Option Sequence) : Prop where
  version : ∀ v, version = some v → v ≤ c.version
  locktime : ∀ l, lt = some l → l.sameUnit (.ofConsensus c.lockTime) ∧ l.toConsensus ≤ c.lockTime
    ∧ c.sequence ≠ 0xffffffff
  sequence : ∀ s, sq = some s → seqMeets c.sequence s

/-- size of a witness in the serialized transaction: element count, then each element with its length -/
def witnessSize (w : List Bytes) : Nat :=
  CoinSelect.Spec.counterLen w.length + (w.map fun e => CoinSelect.Spec.counterLen e.length + e.length).sum

/-- satisfaction weight: the length byte of the empty script sig counts four times, the witness once -/
def satisfactionWeight (w : List Bytes) : Nat := 4 * 1 + witnessSize w

end Verif.Planner.Spec
