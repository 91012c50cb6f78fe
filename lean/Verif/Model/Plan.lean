import Verif.Model.CoinSelect
import Mathlib.Data.List.Sort

/-!
# Spending plans (bdk_tmp_plan/src/{lib,plan_impls,template,requirements}.rs)

Keys of descriptors and assets stay abstract (`Key`, `Ak`), with `canDerive` a parameter; the two instances of
`CanDerive` that exist are modelled in `Verif.Model.KeyDerive`.  Functions of the rust-bitcoin and rust-miniscript crates
that the planner calls are fields of `Lib`.  `todo!()`, `unimplemented!()`, `unreachable!()`, `expect` and `unwrap`
failures are the value `Out.panic`.
-/

namespace Verif.Planner
open CoinSelect (varintSize)

/-- `Vec<u8>`; each entry stands for one byte -/
abbrev Bytes := List Nat

/-- a bip32 derivation path: one number per step (hardened steps are the numbers from 2³¹ on) -/
abbrev Path := List Nat

/-- result of code that may panic -/
inductive Out (α : Type) where
  | ret (a : α)
  | panic
deriving DecidableEq, Repr

/-- `bitcoin::LockTime` (rust-bitcoin 0.29), blockdata/locktime.rs: a block height or a unix time -/
inductive LockTime where
  | blocks (n : Nat)
  | seconds (n : Nat)
deriving DecidableEq, Repr

namespace LockTime
/-- `LockTime::from(PackedLockTime)`: below 500 000 000 it is a height -/
def ofConsensus (n : Nat) : LockTime := if n < 500000000 then .blocks n else .seconds n
/-- `LockTime::to_consensus_u32` -/
def toConsensus : LockTime → Nat
  | .blocks n => n
  | .seconds n => n
/-- `LockTime::is_same_unit` -/
def sameUnit : LockTime → LockTime → Bool
  | .blocks _, .blocks _ => true
  | .seconds _, .seconds _ => true
  | _, _ => false
/-- `LockTime::is_satisfied_by(height, time)` -/
def isSatisfiedBy (l : LockTime) (height time : Nat) : Bool :=
  match l with
  | .blocks n => decide (n ≤ height)
  | .seconds n => decide (n ≤ time)
end LockTime

/-- `bitcoin::Sequence` is a `u32` -/
abbrev Sequence := Nat

/-- `Sequence::is_height_locked`: bit 31 (lock time disabled) and bit 22 (time based) are both clear -/
def isHeightLocked (s : Sequence) : Bool := decide (s / 2 ^ 31 % 2 = 0) && decide (s / 2 ^ 22 % 2 = 0)

/-- `miniscript::Terminal<DefiniteDescriptorKey, Ctx>` (all variants); sub-expressions of `thresh` are a function from
their positions. -/
inductive Ms (Key : Type) where
  | tru
  | fls
  | pkK (k : Key)
  | pkH (k : Key)
  | rawPkH (h : Bytes)
  | after (n : Nat)
  | older (s : Sequence)
  | sha256 (h : Bytes)
  | hash256 (h : Bytes)
  | ripemd160 (h : Bytes)
  | hash160 (h : Bytes)
  | alt (x : Ms Key)
  | swap (x : Ms Key)
  | check (x : Ms Key)
  | dupIf (x : Ms Key)
  | verify (x : Ms Key)
  | nonZero (x : Ms Key)
  | zeroNotEqual (x : Ms Key)
  | andV (x y : Ms Key)
  | andB (x y : Ms Key)
  | andOr (x y z : Ms Key)
  | orB (x y : Ms Key)
  | orD (x y : Ms Key)
  | orC (x y : Ms Key)
  | orI (x y : Ms Key)
  | thresh (k n : Nat) (xs : Fin n → Ms Key)
  | multi (k : Nat) (ks : List Key)
  | multiA (k : Nat) (ks : List Key)

/-- template.rs:25-33 `struct PlanKey` -/
structure PlanKey (Key Ak : Type) where
  assetKey : Ak
  derivationHint : Path
  descriptorKey : Key
deriving DecidableEq, Repr

/-- template.rs:11-21 `enum TemplateItem` -/
inductive TemplateItem (Key Ak : Type) where
  | sign (k : PlanKey Key Ak)
  | pk (k : Key)
  | one
  | zero
  | sha256 (h : Bytes)
  | hash256 (h : Bytes)
  | ripemd160 (h : Bytes)
  | hash160 (h : Bytes)
deriving DecidableEq, Repr

/-- `SchnorrSig`: 64 bytes and a sighash type, 0 being `Default` -/
structure SchnorrSig where
  sig : Bytes
  hashTy : Nat
deriving DecidableEq, Repr

/-- `SchnorrSig::to_vec`: the sighash type is appended unless it is `Default` -/
def SchnorrSig.toVec (s : SchnorrSig) : Bytes := if s.hashTy = 0 then s.sig else s.sig ++ [s.hashTy]

/-- lib.rs:86-99 `struct SatisfactionMaterial`.  The maps are only looked up in, so they are functions; the ECDSA
signatures are never read. -/
structure Material (Key : Type) where
  schnorrSigs : Key → Option SchnorrSig := fun _ => none
  sha256 : Bytes → Option Bytes := fun _ => none
  hash160 : Bytes → Option Bytes := fun _ => none
  hash256 : Bytes → Option Bytes := fun _ => none
  ripemd160 : Bytes → Option Bytes := fun _ => none

/-- lib.rs:340-348 `struct Assets` -/
structure Assets (Ak : Type) where
  keys : List Ak := []
  txoAge : Option Sequence := none
  maxLocktime : Option LockTime := none
  sha256 : List Bytes := []
  hash256 : List Bytes := []
  ripemd160 : List Bytes := []
  hash160 : List Bytes := []

/-- `miniscript::descriptor::Tr`: internal key and the leaves with their depths, in `iter_scripts` order -/
structure Tr (Key : Type) where
  internalKey : Key
  leaves : List (Nat × Ms Key)

/-- What the planner uses of rust-bitcoin and rust-miniscript. -/
structure Lib (Key : Type) where
  /-- `Miniscript::encode` as bytes -/
  encode : Ms Key → Bytes
  /-- `key.to_public_key().to_bytes()` -/
  pubkeyBytes : Key → Bytes
  /-- `tr.spend_info().control_block(&(script, TapScript))`, serialized; `ControlBlock::size` is the length of that -/
  controlBlock : Tr Key → Bytes → Option Bytes
  /-- `tr.spend_info().merkle_root()` -/
  merkleRoot : Tr Key → Option Bytes
  /-- `TapLeafHash::from_script` -/
  leafHash : Bytes → Bytes

variable {Key Ak : Type}

namespace TemplateItem
/-- template.rs:36-47 `expected_size` (`varint_len(1) = 1`) -/
def expectedSize : TemplateItem Key Ak → Nat
  | sign _ => 64
  | pk _ => 32
  | one => varintSize 1
  | zero => 0
  | hash160 _ => 32
  | ripemd160 _ => 32
  | sha256 _ => 32
  | hash256 _ => 32

/-- template.rs:50-75 `to_witness_stack`; every arm is a vector with one element, or a failed `unwrap` (`none`) -/
def toWitness (lib : Lib Key) (m : Material Key) : TemplateItem Key Ak → Option Bytes
  | sign k => (m.schnorrSigs k.descriptorKey).map SchnorrSig.toVec
  | one => some [1]
  | zero => some []
  | sha256 h => m.sha256 h
  | hash160 h => m.hash160 h
  | ripemd160 h => m.ripemd160 h
  | hash256 h => m.hash256 h
  | pk k => some (lib.pubkeyBytes k)

/-- lib.rs:175-187, the filter closure of `try_complete`: does the item lack what it needs -/
def unsatisfied (m : Material Key) : TemplateItem Key Ak → Bool
  | sign k => !(m.schnorrSigs k.descriptorKey).isSome
  | hash160 h => !(m.hash160 h).isSome
  | hash256 h => !(m.hash256 h).isSome
  | sha256 h => !(m.sha256 h).isSome
  | ripemd160 h => !(m.ripemd160 h).isSome
  | pk _ => false
  | one => false
  | zero => false
end TemplateItem

/-- plan_impls.rs:156-160 `struct TermPlan` -/
structure TermPlan (Key Ak : Type) where
  minLocktime : Option LockTime := none
  minSequence : Option Sequence := none
  template : List (TemplateItem Key Ak) := []
deriving DecidableEq, Repr

namespace TermPlan
/-- plan_impls.rs:9-23: the larger of two lock times; the outer `none` is `return None` for different units -/
def combineLocktime : Option LockTime → Option LockTime → Option (Option LockTime)
  | some l, some r =>
    if l.sameUnit r then some (some (if l.toConsensus > r.toConsensus then l else r)) else none
  | some l, none => some (some l)
  | none, r => some r

/-- plan_impls.rs:25-39, likewise for sequences -/
def combineSequence : Option Sequence → Option Sequence → Option (Option Sequence)
  | some l, some r =>
    if isHeightLocked l = isHeightLocked r then some (some (if l > r then l else r)) else none
  | some l, none => some (some l)
  | none, r => some r

/-- plan_impls.rs:8-51 `combine`: the items of `other` are appended to those of `self` -/
def combine (self other : TermPlan Key Ak) : Option (TermPlan Key Ak) :=
  match combineLocktime self.minLocktime other.minLocktime with
  | none => none
  | some lt =>
    match combineSequence self.minSequence other.minSequence with
    | none => none
    | some sq => some ⟨lt, sq, self.template ++ other.template⟩

/-- plan_impls.rs:53-55 `expected_size` -/
def expectedSize (p : TermPlan Key Ak) : Nat := (p.template.map TemplateItem.expectedSize).sum

/-- `plan.template.push(item)` -/
def push (p : TermPlan Key Ak) (i : TemplateItem Key Ak) : TermPlan Key Ak := { p with template := p.template ++ [i] }
end TermPlan

/-- plan_impls.rs:111-114, 189-192, 203-206: the first asset key that can derive the key, with the hint -/
def findKey (canDerive : Ak → Key → Option Path) (keys : List Ak) (k : Key) : Option (PlanKey Key Ak) :=
  keys.findSome? fun a => (canDerive a k).map fun hint => ⟨a, hint, k⟩

/-- plan_impls.rs:300-317: the choice of `or_i` between the two plans, the smaller one or the left one -/
def pickSmaller : Option (TermPlan Key Ak) → Option (TermPlan Key Ak) → Option (TermPlan Key Ak)
  | some l, some r => if l.expectedSize ≤ r.expectedSize then some l else some r
  | some l, none => some l
  | none, r => r

/-- plan_impls.rs:217-232, the `After` arm, verbatim: `max_locktime` is asked whether it is satisfied by its own
height and time -/
def planAfter (maxLocktime : Option LockTime) (n : Nat) : Option (TermPlan Key Ak) :=
  match maxLocktime with
  | none => none
  | some m =>
    let ht : Nat × Nat := match m with
      | .blocks h => (h, 0)
      | .seconds s => (0, s)
    if m.isSatisfiedBy ht.1 ht.2 then some { minLocktime := some (.ofConsensus n) } else none

/-- plan_impls.rs:233-250, the `Older` arm -/
def planOlder (txoAge : Option Sequence) (s : Sequence) : Option (TermPlan Key Ak) :=
  match txoAge with
  | none => none
  | some m =>
    if isHeightLocked m = isHeightLocked s then
      if m ≥ s then some { minSequence := some s } else none
    else none

/-- plan_impls.rs:181-323 `plan_steps` -/
def planSteps (canDerive : Ak → Key → Option Path) (assets : Assets Ak) : Ms Key → Out (Option (TermPlan Key Ak))
  | .tru => .ret (some {})
  | .fls => .ret none
  | .pkH k => .ret ((findKey canDerive assets.keys k).map fun pk => { template := [.sign pk, .pk k] })
  | .pkK k => .ret ((findKey canDerive assets.keys k).map fun pk => { template := [.sign pk] })
  | .rawPkH _ => .ret none
  | .after n => .ret (planAfter assets.maxLocktime n)
  | .older s => .ret (planOlder assets.txoAge s)
  | .sha256 h => .ret (if h ∈ assets.sha256 then some { template := [.sha256 h] } else none)
  | .hash256 h => .ret (if h ∈ assets.hash256 then some { template := [.hash256 h] } else none)
  | .ripemd160 h => .ret (if h ∈ assets.ripemd160 then some { template := [.ripemd160 h] } else none)
  | .hash160 h => .ret (if h ∈ assets.hash160 then some { template := [.hash160 h] } else none)
  | .alt x => planSteps canDerive assets x
  | .swap x => planSteps canDerive assets x
  | .check x => planSteps canDerive assets x
  | .verify x => planSteps canDerive assets x
  | .nonZero x => planSteps canDerive assets x
  | .zeroNotEqual x => planSteps canDerive assets x
  | .dupIf x =>
    match planSteps canDerive assets x with
    | .panic => .panic
    | .ret p => .ret (p.map (·.push .one))
  | .andV x y =>
    match planSteps canDerive assets x with
    | .panic => .panic
    | .ret none => .ret none
    | .ret (some l) =>
      match planSteps canDerive assets y with
      | .panic => .panic
      | .ret none => .ret none
      | .ret (some r) => .ret (l.combine r)
  | .andB x y =>
    match planSteps canDerive assets x with
    | .panic => .panic
    | .ret none => .ret none
    | .ret (some l) =>
      match planSteps canDerive assets y with
      | .panic => .panic
      | .ret none => .ret none
      | .ret (some r) => .ret (l.combine r)
  | .orI x y =>
    match planSteps canDerive assets x with
    | .panic => .panic
    | .ret l =>
      match planSteps canDerive assets y with
      | .panic => .panic
      | .ret r => .ret (pickSmaller (l.map (·.push .one)) (r.map (·.push .zero)))
  | .andOr _ _ _ => .panic
  | .orB _ _ => .panic
  | .orD _ _ => .panic
  | .orC _ _ => .panic
  | .thresh _ _ _ => .panic
  | .multi _ _ => .panic
  | .multiA _ _ => .panic

/-- lib.rs:45-51 `enum TrSpend`; the leaf version is always `TapScript` -/
inductive TrSpend where
  | keySpend
  | leafSpend (script : Bytes)
deriving DecidableEq, Repr

/-- lib.rs:71-76 `struct Plan`.  `plan_satisfaction` only makes plans with the target `Segwitv1`, so the target is the
pair of its fields. -/
structure Plan (Key Ak : Type) where
  template : List (TemplateItem Key Ak)
  tr : Tr Key
  spend : TrSpend
  setLocktime : Option LockTime
  setSequence : Option Sequence

/-- plan_impls.rs:129-132: the plans of the leaves that have one, with the leaf, in leaf order -/
def leafPlans (canDerive : Ak → Key → Option Path) (assets : Assets Ak) :
    List (Nat × Ms Key) → Out (List (Ms Key × TermPlan Key Ak))
  | [] => .ret []
  | (_, ms) :: rest =>
    match planSteps canDerive assets ms with
    | .panic => .panic
    | .ret p =>
      match leafPlans canDerive assets rest with
      | .panic => .panic
      | .ret ps =>
        match p with
        | none => .ret ps
        | some p => .ret ((ms, p) :: ps)

/-- plan_impls.rs:134-136: `sort_by_cached_key` (a stable sort) by expected size, then the first entry -/
def smallest (ps : List (Ms Key × TermPlan Key Ak)) : Option (Ms Key × TermPlan Key Ak) :=
  (ps.insertionSort fun a b => a.2.expectedSize ≤ b.2.expectedSize).head?

/-- plan_impls.rs:104-153 `plan_satisfaction_tr`, and lib.rs:421-437 `plan_satisfaction` for `Descriptor::Tr`; the other
descriptors are `todo!()`. -/
def planTr (lib : Lib Key) (canDerive : Ak → Key → Option Path) (tr : Tr Key) (assets : Assets Ak) :
    Out (Option (Plan Key Ak)) :=
  match findKey canDerive assets.keys tr.internalKey with
  | some pk => .ret (some ⟨[.sign pk], tr, .keySpend, none, none⟩)
  | none =>
    match leafPlans canDerive assets tr.leaves with
    | .panic => .panic
    | .ret ps =>
      match smallest ps with
      | none => .ret none
      | some (ms, best) =>
        .ret (some ⟨best.template, tr, .leafSpend (lib.encode ms), best.minLocktime, best.minSequence⟩)

/-- requirements.rs:65-84 `RequiredSignatures`; `Legacy` only occurs as the default value, `Segwitv0` never -/
inductive RequiredSignatures (Key Ak : Type) where
  | legacy
  | tapKey (planKey : PlanKey Key Ak) (merkleRoot : Option Bytes)
  | tapScript (leafHash : Bytes) (planKeys : List (PlanKey Key Ak))
deriving DecidableEq, Repr

/-- requirements.rs:20-31 `Requirements`; sets of images as lists without repetition -/
structure Requirements (Key Ak : Type) where
  signatures : RequiredSignatures Key Ak := .legacy
  sha256 : List Bytes := []
  hash160 : List Bytes := []
  hash256 : List Bytes := []
  ripemd160 : List Bytes := []
deriving DecidableEq, Repr

/-- requirements.rs:55-60 `requires_hash_preimages` -/
def Requirements.requiresPreimages (r : Requirements Key Ak) : Bool :=
  !(r.sha256.isEmpty && r.hash160.isEmpty && r.hash256.isEmpty && r.ripemd160.isEmpty)

/-- lib.rs:328-337 `PlanState`; `final_script_sig` is always `None` -/
inductive PlanState (Key Ak : Type) where
  | complete (witness : List Bytes)
  | incomplete (r : Requirements Key Ak)
deriving DecidableEq, Repr

/-- one round of lib.rs:269-290, with the required signatures kept apart -/
def addRequirement (acc : Requirements Key Ak × List (PlanKey Key Ak)) :
    TemplateItem Key Ak → Requirements Key Ak × List (PlanKey Key Ak)
  | .sign k => (acc.1, acc.2 ++ [k])
  | .hash160 h => ({ acc.1 with hash160 := acc.1.hash160.insert h }, acc.2)
  | .hash256 h => ({ acc.1 with hash256 := acc.1.hash256.insert h }, acc.2)
  | .sha256 h => ({ acc.1 with sha256 := acc.1.sha256.insert h }, acc.2)
  | .ripemd160 h => ({ acc.1 with ripemd160 := acc.1.ripemd160.insert h }, acc.2)
  | .pk _ => acc
  | .one => acc
  | .zero => acc

namespace Plan

/-- the `flat_map` of lib.rs:191-195: one failed `unwrap` is a panic of the whole -/
def witnessOf (lib : Lib Key) (m : Material Key) : List (TemplateItem Key Ak) → Option (List Bytes)
  | [] => some []
  | i :: is =>
    match i.toWitness lib m with
    | none => none
    | some w => (witnessOf lib m is).map (w :: ·)

/-- lib.rs:171-296 `try_complete` for the target `Segwitv1` -/
def tryComplete (lib : Lib Key) (p : Plan Key Ak) (m : Material Key) : Out (PlanState Key Ak) :=
  let unsat := p.template.filter (TemplateItem.unsatisfied m)
  if unsat = [] then
    match witnessOf lib m p.template with
    | none => .panic
    | some w =>
      match p.spend with
      | .keySpend => .ret (.complete w)
      | .leafSpend script =>
        match lib.controlBlock p.tr script with
        | none => .panic
        | some cb => .ret (.complete (w ++ [script, cb]))
  else
    match p.spend with
    | .keySpend =>
      match p.template with
      | [.sign k] => .ret (.incomplete { signatures := .tapKey k (lib.merkleRoot p.tr) })
      | _ => .panic
    | .leafSpend script =>
      let acc := unsat.foldl addRequirement ({}, [])
      .ret (.incomplete { acc.1 with signatures := .tapScript (lib.leafHash script) acc.2 })

/-- lib.rs:164-169 `requirements` -/
def requirements (lib : Lib Key) (p : Plan Key Ak) : Out (Requirements Key Ak) :=
  match p.tryComplete lib {} with
  | .panic => .panic
  | .ret (.complete _) => .ret {}
  | .ret (.incomplete r) => .ret r

/-- lib.rs:106-162 `expected_weight` for the target `Segwitv1` -/
def expectedWeight (lib : Lib Key) (p : Plan Key Ak) : Out Nat :=
  let elems := p.template.map TemplateItem.expectedSize
  let elems? : Option (List Nat) := match p.spend with
    | .keySpend => some elems
    | .leafSpend script => (lib.controlBlock p.tr script).map fun cb => elems ++ [script.length, cb.length]
  match elems? with
  | none => .panic
  | some es => .ret (1 * 4 + (varintSize es.length + (es.map fun e => varintSize e + e).sum))

/-- lib.rs:299-305 `witness_version` -/
def witnessVersion (_ : Plan Key Ak) : Option Nat := some 1
/-- lib.rs:308-310 `required_locktime` -/
def requiredLocktime (p : Plan Key Ak) : Option LockTime := p.setLocktime
/-- lib.rs:313-315 `required_sequence` -/
def requiredSequence (p : Plan Key Ak) : Option Sequence := p.setSequence
/-- lib.rs:318-324 `min_version` -/
def minVersion (p : Plan Key Ak) : Option Nat := if p.setSequence.isSome then some 2 else some 1
end Plan

end Verif.Planner
