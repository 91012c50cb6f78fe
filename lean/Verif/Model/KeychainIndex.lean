import Verif.Model.SpkIndex

/-!
# Model of `KeychainTxOutIndex` (bdk_chain/src/keychain/txout_index.rs) and `DerivationAdditions` (bdk_chain/src/keychain.rs)

`u32` arithmetic is checked and `debug_assert!`s are on, as in a debug build: both show up as a panic (`none`).
-/

namespace Verif

/-- txout_index.rs:13 `pub const BIP32_MAX_INDEX: u32 = 1 << 31 - 1;` (in Rust `-` binds tighter than `<<`) -/
def bip32MaxIndex : Nat := 1 <<< (31 - 1)

/-- checked `u32` addition; `none` = overflow panic -/
def addU32 (a b : Nat) : Option Nat := if a + b ≤ u32Max then some (a + b) else none

/-- The parts of `miniscript::Descriptor<DescriptorPublicKey>` the code uses: `has_wildcard` and
`derived_descriptor(i).script_pubkey()`, where the derivation may fail -/
class DescriptorOps (D : Type) where
  hasWildcard : D → Bool
  spkAt : D → Nat → Option Script

export DescriptorOps (hasWildcard spkAt)

/-- `Iterator::map_while` -/
def mapWhile {α β : Type} (f : α → Option β) : List α → List β
  | [] => []
  | a :: l => match f a with
    | some b => b :: mapWhile f l
    | none => []

/-- txout_index.rs:611-633 `range_descriptor_spks`, for the indices in the list -/
def rangeDescriptorSpks {D : Type} [DescriptorOps D] (d : D) (l : List Nat) : List (Nat × Script) :=
  mapWhile (fun i => (spkAt d i).map (fun s => (i, s)))
    ((l.takeWhile (fun i => hasWildcard d || i == 0)).takeWhile (fun i => decide (i ≤ bip32MaxIndex)))

/-- the range `a..b` of `u32` -/
def rangeEx (a b : Nat) : List Nat := List.range' a (b - a)
/-- the range `a..=b` of `u32` -/
def rangeIn (a b : Nat) : List Nat := List.range' a (b + 1 - a)

/-- keychain.rs:57 `struct DerivationAdditions<K>(BTreeMap<K, u32>)` -/
abbrev DerivationAdditions (K : Type) [LinearOrder K] := OMap K Nat

namespace DerivationAdditions
variable {K : Type} [LinearOrder K]
/-- keychain.rs:77-85 `append`: the maximum for shared keychains, then the rest of `other` -/
def append (a other : DerivationAdditions K) : DerivationAdditions K :=
  OMap.append (a.mapVal (fun k i => match other.get k with | some j => max j i | none => i))
    (OMap.filter other (fun k _ => !a.contains k))
end DerivationAdditions

/-- txout_index.rs:62-70 `struct KeychainTxOutIndex<K>` -/
structure KeychainIndex (K D : Type) [LinearOrder K] where
  inner : SpkIndex (K ×ₗ Nat)
  keychains : OMap K D
  lastRevealed : OMap K Nat
  lookahead : OMap K Nat
deriving DecidableEq

namespace KeychainIndex
variable {K D : Type} [LinearOrder K] [DescriptorOps D]

/-- txout_index.rs:72-81 `Default` -/
def empty : KeychainIndex K D := ⟨SpkIndex.empty, OMap.empty, OMap.empty, OMap.empty⟩

/-- txout_index.rs:142-148 `add_keychain`; panics when the keychain has another descriptor -/
def addKeychain [DecidableEq D] (s : KeychainIndex K D) (k : K) (d : D) : Option (KeychainIndex K D) :=
  match s.keychains.get k with
  | none => some { s with keychains := s.keychains.insert k d }
  | some d' => if d = d' then some s else none

/-- txout_index.rs:228-234 `next_store_index`: one more than the last stored index in `(k, 0)..(k, u32::MAX)` -/
def nextStoreIndex (s : KeychainIndex K D) (k : K) : Nat :=
  match (s.inner.spks.entries.filter (fun e => decide ((toLex (k, 0) : K ×ₗ Nat) ≤ e.1) &&
      decide (e.1 < (toLex (k, u32Max) : K ×ₗ Nat)))).getLast? with
  | some e => (ofLex e.1).2 + 1
  | none => 0

/-- `self.last_revealed.get(keychain).map_or(0, |v| *v + 1)` (e.g. txout_index.rs:214); `none` = overflow -/
def nextRevealIndex (s : KeychainIndex K D) (k : K) : Option Nat :=
  match s.lastRevealed.get k with
  | some v => addU32 v 1
  | none => some 0

/-- `self.lookahead.get(keychain).map_or(0, |v| *v)` -/
def lookaheadOf (s : KeychainIndex K D) (k : K) : Nat := (s.lookahead.get k).getD 0

/-- the loops at txout_index.rs:217-225 (with `from = 0`) and 404-417: `insert_spk` for the indices `>= from`, with
`debug_assert!(_inserted)` -/
def storeSpks (x : SpkIndex (K ×ₗ Nat)) (k : K) (from' : Nat) : List (Nat × Script) → Option (SpkIndex (K ×ₗ Nat))
  | [] => some x
  | (i, spk) :: l =>
    if from' ≤ i then
      let r := x.insertSpk (toLex (k, i)) spk
      if r.2 then storeSpks r.1 k from' l else none
    else storeSpks x k from' l

/-- txout_index.rs:211-226 `replenish_lookahead` -/
def replenishLookahead (s : KeychainIndex K D) (k : K) : Option (KeychainIndex K D) := do
  let d ← s.keychains.get k
  let nextStore := s.nextStoreIndex k
  let nextReveal ← s.nextRevealIndex k
  let stop ← addU32 nextReveal (s.lookaheadOf k)
  let inner ← storeSpks s.inner k 0 (rangeDescriptorSpks d (rangeEx nextStore stop))
  return { s with inner := inner }

/-- txout_index.rs:180-183 `set_lookahead` -/
def setLookahead (s : KeychainIndex K D) (k : K) (n : Nat) : Option (KeychainIndex K D) :=
  ({ s with lookahead := s.lookahead.insert k n }).replenishLookahead k

/-- txout_index.rs:162-167 `set_lookahead_for_all` -/
def setLookaheadForAll (s : KeychainIndex K D) (n : Nat) : Option (KeychainIndex K D) :=
  s.keychains.keys.foldlM (fun s k => s.setLookahead k n) s

/-- txout_index.rs:197-209 `lookahead_to_target` -/
def lookaheadToTarget (s : KeychainIndex K D) (k : K) (target : Nat) : Option (KeychainIndex K D) :=
  let nextIndex := s.nextStoreIndex k
  if nextIndex < target then do
    let old := s.lookahead.get k
    let s' ← s.setLookahead k (target - nextIndex)
    return { s' with lookahead := match old with
      | some v => s'.lookahead.insert k v
      | none => s'.lookahead.erase k }
  else some s

/-- txout_index.rs:188-192 `lookahead_to_target_multi` -/
def lookaheadToTargetMulti (s : KeychainIndex K D) (m : OMap K Nat) : Option (KeychainIndex K D) :=
  m.entries.foldlM (fun s e => s.lookaheadToTarget e.1 e.2) s

/-- txout_index.rs:258-265 `spks_of_keychain` (and 238-251): all derivable scripts; `none` = panic -/
def spksOfKeychain (s : KeychainIndex K D) (k : K) : Option (List (Nat × Script)) := do
  let d ← s.keychains.get k
  return rangeDescriptorSpks d (List.range (u32Max + 1))

/-- txout_index.rs:280-289 `revealed_spks_of_keychain` -/
def revealedSpksOfKeychain (s : KeychainIndex K D) (k : K) : Option (List (Nat × Script)) := do
  let next ← s.nextRevealIndex k
  return (s.inner.spks.entries.filter (fun e => decide ((toLex (k, 0) : K ×ₗ Nat) ≤ e.1) &&
      decide (e.1 < (toLex (k, next) : K ×ₗ Nat)))).map (fun e => ((ofLex e.1).2, e.2))

/-- txout_index.rs:305-325 `next_index`; `none` = panic (unknown keychain, or the `unreachable!`) -/
def nextIndex (s : KeychainIndex K D) (k : K) : Option (Nat × Bool) :=
  match s.keychains.get k with
  | none => none
  | some d =>
    match s.lastRevealed.get k with
    | none => some (0, true)
    | some index =>
      if !hasWildcard d then some (0, false)
      else if index > bip32MaxIndex then none
      else if index = bip32MaxIndex then some (index, false)
      else some (index + 1, true)

/-- txout_index.rs:336-338 `last_revealed_index` -/
def lastRevealedIndex (s : KeychainIndex K D) (k : K) : Option Nat := s.lastRevealed.get k

/-- txout_index.rs:395-417: the value of `revealed_index` before the `match` -/
def revealedIndex (nextReveal lookahead target : Nat) (spks : List (Nat × Script)) : Option Nat :=
  spks.foldl (fun r e => if e.1 ≤ target then some e.1 else r)
    (if nextReveal ≤ target ∧ target < nextReveal + lookahead then some target else none)

/-- txout_index.rs:375-437 `reveal_to_target`: new state, newly revealed scripts, additions -/
def revealToTarget (s : KeychainIndex K D) (k : K) (target : Nat) :
    Option (KeychainIndex K D × List (Nat × Script) × DerivationAdditions K) := do
  let d ← s.keychains.get k
  let target := if hasWildcard d then target else 0
  let nextStore := s.nextStoreIndex k
  let nextReveal ← s.nextRevealIndex k
  let lookahead := s.lookaheadOf k
  let start ← addU32 nextReveal lookahead
  let stop ← addU32 target lookahead
  let spks := rangeDescriptorSpks d (rangeIn start stop)
  let inner ← storeSpks s.inner k nextStore spks
  match revealedIndex nextReveal lookahead target spks with
  | some index =>
    -- `debug_assert!(_old_index < Some(index))`
    if (match s.lastRevealed.get k with | some old => decide (index ≤ old) | none => false) then none
    else do
      let e ← addU32 index 1
      return ({ s with inner := inner, lastRevealed := s.lastRevealed.insert k index },
        rangeDescriptorSpks d (rangeEx nextReveal e), OMap.empty.insert k index)
  | none => return ({ s with inner := inner }, rangeDescriptorSpks d (rangeEx nextReveal nextReveal), OMap.empty)

/-- txout_index.rs:340-359 `reveal_to_target_multi` -/
def revealToTargetMulti (s : KeychainIndex K D) (m : OMap K Nat) :
    Option (KeychainIndex K D × OMap K (List (Nat × Script)) × DerivationAdditions K) :=
  m.entries.foldlM (fun acc e => do
    let r ← acc.1.revealToTarget e.1 e.2
    return (r.1, if r.2.2.isEmpty then acc.2 else (acc.2.1.insert e.1 r.2.1, DerivationAdditions.append acc.2.2 r.2.2)))
    (s, OMap.empty, OMap.empty)

/-- txout_index.rs:117-122 `scan_txout` -/
def scanTxout (s : KeychainIndex K D) (o : OutPoint) (x : TxOut) : Option (KeychainIndex K D × DerivationAdditions K) :=
  let r := s.inner.scanTxout o x
  let s' := { s with inner := r.1 }
  match r.2 with
  | some ki => (s'.revealToTarget (ofLex ki).1 (ofLex ki).2).map (fun r => (r.1, r.2.2))
  | none => some (s', OMap.empty)

/-- txout_index.rs:108-112 `scan` -/
def scan (s : KeychainIndex K D) (l : List (OutPoint × TxOut)) : Option (KeychainIndex K D × DerivationAdditions K) :=
  l.foldlM (fun acc e => do
    let r ← acc.1.scanTxout e.1 e.2
    return (r.1, DerivationAdditions.append acc.2 r.2)) (s, OMap.empty)

/-- txout_index.rs:453-461 `reveal_next_spk` -/
def revealNextSpk (s : KeychainIndex K D) (k : K) : Option (KeychainIndex K D × (Nat × Script) × DerivationAdditions K) := do
  let n ← s.nextIndex k
  let r ← s.revealToTarget k n.1
  let spk ← r.1.inner.spkAtIndex (toLex (k, n.1))
  return (r.1, (n.1, spk), r.2.2)

/-- txout_index.rs:548-550 `mark_used` -/
def markUsed (s : KeychainIndex K D) (k : K) (i : Nat) : KeychainIndex K D × Bool :=
  let r := s.inner.markUsed (toLex (k, i))
  ({ s with inner := r.1 }, r.2)

/-- txout_index.rs:559-561 `unmark_used` -/
def unmarkUsed (s : KeychainIndex K D) (k : K) (i : Nat) : KeychainIndex K D × Bool :=
  let r := s.inner.unmarkUsed (toLex (k, i))
  ({ s with inner := r.1 }, r.2)

/-- txout_index.rs:474-485 `reveal_and_reserve_next_spk` -/
def revealAndReserveNextSpk (s : KeychainIndex K D) (k : K) :
    Option (KeychainIndex K D × (Nat × Script) × DerivationAdditions K) := do
  let r ← s.revealNextSpk k
  let s' := (r.1.markUsed k r.2.1.1).1
  let spk ← s'.inner.spkAtIndex (toLex (k, r.2.1.1))
  return (s', (r.2.1.1, spk), r.2.2)

/-- txout_index.rs:564-573 `unused_spks_of_keychain`; an inner `none` = the `expect` in `unused_spks` panics -/
def unusedSpksOfKeychain (s : KeychainIndex K D) (k : K) : Option (List (Nat × Option Script)) := do
  let next ← s.nextRevealIndex k
  let l ← s.inner.unusedSpks (.included (toLex (k, 0))) (.excluded (toLex (k, next)))
  return l.map (fun e => ((ofLex e.1).2, e.2))

/-- txout_index.rs:499-512 `next_unused_spk` -/
def nextUnusedSpk (s : KeychainIndex K D) (k : K) : Option (KeychainIndex K D × (Nat × Script) × DerivationAdditions K) := do
  let l ← s.unusedSpksOfKeychain k
  match l with
  | [] => s.revealNextSpk k
  | (i, spk) :: _ => do
    let spk ← spk
    return (s, (i, spk), OMap.empty)

/-- txout_index.rs:525-536 `reserve_next_unused_spk` -/
def reserveNextUnusedSpk (s : KeychainIndex K D) (k : K) :
    Option (KeychainIndex K D × (Nat × Script) × DerivationAdditions K) := do
  let r ← s.nextUnusedSpk k
  let s' := (r.1.markUsed k r.2.1.1).1
  let spk ← s'.inner.spkAtIndex (toLex (k, r.2.1.1))
  return (s', (r.2.1.1, spk), r.2.2)

/-- txout_index.rs:577-584 `txouts_of_keychain` -/
def txoutsOfKeychain (s : KeychainIndex K D) (k : K) : Option (List (Nat × OutPoint)) := do
  let l ← s.inner.outputsInRange (.included (toLex (k, 0))) (.excluded (toLex (k, u32Max)))
  return l.map (fun e => ((ofLex e.1).2, e.2))

/-- txout_index.rs:588-590 `last_used_index`; the outer `none` = panic -/
def lastUsedIndex (s : KeychainIndex K D) (k : K) : Option (Option Nat) := do
  let l ← s.txoutsOfKeychain k
  return l.getLast?.map Prod.fst

/-- txout_index.rs:606-608 `apply_additions` -/
def applyAdditions (s : KeychainIndex K D) (a : DerivationAdditions K) : Option (KeychainIndex K D) :=
  (s.revealToTargetMulti a).map (fun r => r.1)

/-- the mutating methods -/
inductive Op (K D : Type) [LinearOrder K] where
  | addKeychain (k : K) (d : D)
  | setLookahead (k : K) (n : Nat)
  | setLookaheadForAll (n : Nat)
  | lookaheadToTarget (k : K) (n : Nat)
  | lookaheadToTargetMulti (m : OMap K Nat)
  | revealToTarget (k : K) (n : Nat)
  | revealToTargetMulti (m : OMap K Nat)
  | revealNextSpk (k : K)
  | revealAndReserveNextSpk (k : K)
  | nextUnusedSpk (k : K)
  | reserveNextUnusedSpk (k : K)
  | markUsed (k : K) (i : Nat)
  | unmarkUsed (k : K) (i : Nat)
  | scanTxout (o : OutPoint) (x : TxOut)
  | scan (l : List (OutPoint × TxOut))
  | applyAdditions (a : DerivationAdditions K)

/-- one call: new state and the additions it returns (`apply_additions` drops them, the methods without additions return none) -/
def step [DecidableEq D] (s : KeychainIndex K D) : Op K D → Option (KeychainIndex K D × DerivationAdditions K)
  | .addKeychain k d => (s.addKeychain k d).map (fun s => (s, OMap.empty))
  | .setLookahead k n => (s.setLookahead k n).map (fun s => (s, OMap.empty))
  | .setLookaheadForAll n => (s.setLookaheadForAll n).map (fun s => (s, OMap.empty))
  | .lookaheadToTarget k n => (s.lookaheadToTarget k n).map (fun s => (s, OMap.empty))
  | .lookaheadToTargetMulti m => (s.lookaheadToTargetMulti m).map (fun s => (s, OMap.empty))
  | .revealToTarget k n => (s.revealToTarget k n).map (fun r => (r.1, r.2.2))
  | .revealToTargetMulti m => (s.revealToTargetMulti m).map (fun r => (r.1, r.2.2))
  | .revealNextSpk k => (s.revealNextSpk k).map (fun r => (r.1, r.2.2))
  | .revealAndReserveNextSpk k => (s.revealAndReserveNextSpk k).map (fun r => (r.1, r.2.2))
  | .nextUnusedSpk k => (s.nextUnusedSpk k).map (fun r => (r.1, r.2.2))
  | .reserveNextUnusedSpk k => (s.reserveNextUnusedSpk k).map (fun r => (r.1, r.2.2))
  | .markUsed k i => some ((s.markUsed k i).1, OMap.empty)
  | .unmarkUsed k i => some ((s.unmarkUsed k i).1, OMap.empty)
  | .scanTxout o x => s.scanTxout o x
  | .scan l => s.scan l
  | .applyAdditions a => (s.revealToTargetMulti a).map (fun r => (r.1, r.2.2))

/-- a sequence of calls: final state and the additions returned, in order; `none` = one of them panicked -/
def runFrom [DecidableEq D] (s : KeychainIndex K D) :
    List (Op K D) → Option (KeychainIndex K D × List (DerivationAdditions K))
  | [] => some (s, [])
  | op :: l => do
    let r ← s.step op
    let r' ← runFrom r.1 l
    return (r'.1, r.2 :: r'.2)

/-- every index a caller can build with the public methods -/
def Reachable [DecidableEq D] (s : KeychainIndex K D) : Prop := ∃ ops log, (empty : KeychainIndex K D).runFrom ops = some (s, log)

end KeychainIndex
end Verif
