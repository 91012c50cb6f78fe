import Verif.Model.KeychainIndex
import Verif.Model.Machine

/-!
# `KeychainTxOutIndex` and the checkpoint arithmetic in both build profiles

Model/KeychainIndex is a debug build: `u32` overflow and a failing `debug_assert!` are panics.  Here are the same methods with the
build profile as a parameter: in a release build sums wrap around and the `debug_assert!`s are not compiled in.  The two `expect`s and
the `unreachable!` are there in both.  `none` is a panic.
-/

namespace Verif

/-- the sum of two `u32` -/
def Build.add32 (b : Build) (x y : Nat) : Option Nat := b.unsigned 32 ((x : Int) + y)

/-- `debug_assert!`: compiled in in a debug build only -/
def Build.assert (b : Build) (c : Bool) : Bool := match b with
  | .debug => c
  | .release => true

namespace KeychainIndex
variable {K D : Type} [LinearOrder K] [DescriptorOps D]

/-- `self.last_revealed.get(keychain).map_or(0, |v| *v + 1)` (txout_index.rs:214, 284, 385, 568) -/
def nextRevealIndexM (b : Build) (s : KeychainIndex K D) (k : K) : Option Nat :=
  match s.lastRevealed.get k with
  | some v => b.add32 v 1
  | none => some 0

/-- the loops at txout_index.rs:217-225 (with `from = 0`) and 404-417: `insert_spk`, which does nothing for a script that is known -/
def storeSpksM (b : Build) (x : SpkIndex (K ×ₗ Nat)) (k : K) (from' : Nat) : List (Nat × Script) → Option (SpkIndex (K ×ₗ Nat))
  | [] => some x
  | (i, spk) :: l =>
    if from' ≤ i then
      let r := x.insertSpk (toLex (k, i)) spk
      if b.assert r.2 then storeSpksM b r.1 k from' l else none
    else storeSpksM b x k from' l

/-- txout_index.rs:211-226 `replenish_lookahead` -/
def replenishLookaheadM (b : Build) (s : KeychainIndex K D) (k : K) : Option (KeychainIndex K D) := do
  let d ← s.keychains.get k
  let nextStore := s.nextStoreIndex k
  let nextReveal ← s.nextRevealIndexM b k
  let stop ← b.add32 nextReveal (s.lookaheadOf k)
  let inner ← storeSpksM b s.inner k 0 (rangeDescriptorSpks d (rangeEx nextStore stop))
  return { s with inner := inner }

/-- txout_index.rs:180-183 `set_lookahead` -/
def setLookaheadM (b : Build) (s : KeychainIndex K D) (k : K) (n : Nat) : Option (KeychainIndex K D) :=
  ({ s with lookahead := s.lookahead.insert k n }).replenishLookaheadM b k

/-- txout_index.rs:162-167 `set_lookahead_for_all` -/
def setLookaheadForAllM (b : Build) (s : KeychainIndex K D) (n : Nat) : Option (KeychainIndex K D) :=
  s.keychains.keys.foldlM (fun s k => s.setLookaheadM b k n) s

/-- txout_index.rs:197-209 `lookahead_to_target` (`checked_sub` does not overflow) -/
def lookaheadToTargetM (b : Build) (s : KeychainIndex K D) (k : K) (target : Nat) : Option (KeychainIndex K D) :=
  let nextIndex := s.nextStoreIndex k
  if nextIndex < target then do
    let old := s.lookahead.get k
    let s' ← s.setLookaheadM b k (target - nextIndex)
    return { s' with lookahead := match old with
      | some v => s'.lookahead.insert k v
      | none => s'.lookahead.erase k }
  else some s

/-- txout_index.rs:188-192 `lookahead_to_target_multi` -/
def lookaheadToTargetMultiM (b : Build) (s : KeychainIndex K D) (m : OMap K Nat) : Option (KeychainIndex K D) :=
  m.entries.foldlM (fun s e => s.lookaheadToTargetM b e.1 e.2) s

/-- txout_index.rs:280-289 `revealed_spks_of_keychain` -/
def revealedSpksOfKeychainM (b : Build) (s : KeychainIndex K D) (k : K) : Option (List (Nat × Script)) := do
  let next ← s.nextRevealIndexM b k
  return (s.inner.spks.entries.filter (fun e => decide ((toLex (k, 0) : K ×ₗ Nat) ≤ e.1) &&
      decide (e.1 < (toLex (k, next) : K ×ₗ Nat)))).map (fun e => ((ofLex e.1).2, e.2))

/-- txout_index.rs:388-417: the value of `revealed_index` before the `match`; `start` is `next_reveal_index + lookahead` -/
def revealedIndexM (nextReveal start target : Nat) (spks : List (Nat × Script)) : Option Nat :=
  spks.foldl (fun r e => if e.1 ≤ target then some e.1 else r)
    (if nextReveal ≤ target ∧ target < start then some target else none)

/-- txout_index.rs:375-437 `reveal_to_target` -/
def revealToTargetM (b : Build) (s : KeychainIndex K D) (k : K) (target : Nat) :
    Option (KeychainIndex K D × List (Nat × Script) × DerivationAdditions K) := do
  let d ← s.keychains.get k
  let target := if hasWildcard d then target else 0
  let nextStore := s.nextStoreIndex k
  let nextReveal ← s.nextRevealIndexM b k
  let lookahead := s.lookaheadOf k
  let start ← b.add32 nextReveal lookahead
  let stop ← b.add32 target lookahead
  let spks := rangeDescriptorSpks d (rangeIn start stop)
  let inner ← storeSpksM b s.inner k nextStore spks
  match revealedIndexM nextReveal start target spks with
  | some index =>
    -- `debug_assert!(_old_index < Some(index))`
    if b.assert (match s.lastRevealed.get k with | some old => decide (old < index) | none => true) then do
      let e ← b.add32 index 1
      return ({ s with inner := inner, lastRevealed := s.lastRevealed.insert k index },
        rangeDescriptorSpks d (rangeEx nextReveal e), OMap.empty.insert k index)
    else none
  | none => return ({ s with inner := inner }, rangeDescriptorSpks d (rangeEx nextReveal nextReveal), OMap.empty)

/-- txout_index.rs:340-359 `reveal_to_target_multi` -/
def revealToTargetMultiM (b : Build) (s : KeychainIndex K D) (m : OMap K Nat) :
    Option (KeychainIndex K D × OMap K (List (Nat × Script)) × DerivationAdditions K) :=
  m.entries.foldlM (fun acc e => do
    let r ← acc.1.revealToTargetM b e.1 e.2
    return (r.1, if r.2.2.isEmpty then acc.2 else (acc.2.1.insert e.1 r.2.1, DerivationAdditions.append acc.2.2 r.2.2)))
    (s, OMap.empty, OMap.empty)

/-- txout_index.rs:117-122 `scan_txout` -/
def scanTxoutM (b : Build) (s : KeychainIndex K D) (o : OutPoint) (x : TxOut) :
    Option (KeychainIndex K D × DerivationAdditions K) :=
  let r := s.inner.scanTxout o x
  let s' := { s with inner := r.1 }
  match r.2 with
  | some ki => (s'.revealToTargetM b (ofLex ki).1 (ofLex ki).2).map (fun r => (r.1, r.2.2))
  | none => some (s', OMap.empty)

/-- txout_index.rs:108-112 `scan` -/
def scanM (b : Build) (s : KeychainIndex K D) (l : List (OutPoint × TxOut)) :
    Option (KeychainIndex K D × DerivationAdditions K) :=
  l.foldlM (fun acc e => do
    let r ← acc.1.scanTxoutM b e.1 e.2
    return (r.1, DerivationAdditions.append acc.2 r.2)) (s, OMap.empty)

/-- txout_index.rs:453-461 `reveal_next_spk` (`index + 1` of `next_index`, line 323, is at most `BIP32_MAX_INDEX`) -/
def revealNextSpkM (b : Build) (s : KeychainIndex K D) (k : K) :
    Option (KeychainIndex K D × (Nat × Script) × DerivationAdditions K) := do
  let n ← s.nextIndex k
  let r ← s.revealToTargetM b k n.1
  let spk ← r.1.inner.spkAtIndex (toLex (k, n.1))
  return (r.1, (n.1, spk), r.2.2)

/-- txout_index.rs:474-485 `reveal_and_reserve_next_spk` -/
def revealAndReserveNextSpkM (b : Build) (s : KeychainIndex K D) (k : K) :
    Option (KeychainIndex K D × (Nat × Script) × DerivationAdditions K) := do
  let r ← s.revealNextSpkM b k
  let s' := (r.1.markUsed k r.2.1.1).1
  let spk ← s'.inner.spkAtIndex (toLex (k, r.2.1.1))
  return (s', (r.2.1.1, spk), r.2.2)

/-- txout_index.rs:564-573 `unused_spks_of_keychain` -/
def unusedSpksOfKeychainM (b : Build) (s : KeychainIndex K D) (k : K) : Option (List (Nat × Option Script)) := do
  let next ← s.nextRevealIndexM b k
  let l ← s.inner.unusedSpks (.included (toLex (k, 0))) (.excluded (toLex (k, next)))
  return l.map (fun e => ((ofLex e.1).2, e.2))

/-- txout_index.rs:499-512 `next_unused_spk` -/
def nextUnusedSpkM (b : Build) (s : KeychainIndex K D) (k : K) :
    Option (KeychainIndex K D × (Nat × Script) × DerivationAdditions K) := do
  let l ← s.unusedSpksOfKeychainM b k
  match l with
  | [] => s.revealNextSpkM b k
  | (i, spk) :: _ => do
    let spk ← spk
    return (s, (i, spk), OMap.empty)

/-- txout_index.rs:525-536 `reserve_next_unused_spk` -/
def reserveNextUnusedSpkM (b : Build) (s : KeychainIndex K D) (k : K) :
    Option (KeychainIndex K D × (Nat × Script) × DerivationAdditions K) := do
  let r ← s.nextUnusedSpkM b k
  let s' := (r.1.markUsed k r.2.1.1).1
  let spk ← s'.inner.spkAtIndex (toLex (k, r.2.1.1))
  return (s', (r.2.1.1, spk), r.2.2)

/-- one call, in a given build (`apply_additions` drops the additions of `reveal_to_target_multi`) -/
def stepM [DecidableEq D] (b : Build) (s : KeychainIndex K D) : Op K D → Option (KeychainIndex K D × DerivationAdditions K)
  | .addKeychain k d => (s.addKeychain k d).map (fun s => (s, OMap.empty))
  | .setLookahead k n => (s.setLookaheadM b k n).map (fun s => (s, OMap.empty))
  | .setLookaheadForAll n => (s.setLookaheadForAllM b n).map (fun s => (s, OMap.empty))
  | .lookaheadToTarget k n => (s.lookaheadToTargetM b k n).map (fun s => (s, OMap.empty))
  | .lookaheadToTargetMulti m => (s.lookaheadToTargetMultiM b m).map (fun s => (s, OMap.empty))
  | .revealToTarget k n => (s.revealToTargetM b k n).map (fun r => (r.1, r.2.2))
  | .revealToTargetMulti m => (s.revealToTargetMultiM b m).map (fun r => (r.1, r.2.2))
  | .revealNextSpk k => (s.revealNextSpkM b k).map (fun r => (r.1, r.2.2))
  | .revealAndReserveNextSpk k => (s.revealAndReserveNextSpkM b k).map (fun r => (r.1, r.2.2))
  | .nextUnusedSpk k => (s.nextUnusedSpkM b k).map (fun r => (r.1, r.2.2))
  | .reserveNextUnusedSpk k => (s.reserveNextUnusedSpkM b k).map (fun r => (r.1, r.2.2))
  | .markUsed k i => some ((s.markUsed k i).1, OMap.empty)
  | .unmarkUsed k i => some ((s.unmarkUsed k i).1, OMap.empty)
  | .scanTxout o x => s.scanTxoutM b o x
  | .scan l => s.scanM b l
  | .applyAdditions a => (s.revealToTargetMultiM b a).map (fun r => (r.1, r.2.2))

/-- a sequence of calls, in a given build -/
def runFromM [DecidableEq D] (b : Build) (s : KeychainIndex K D) :
    List (Op K D) → Option (KeychainIndex K D × List (DerivationAdditions K))
  | [] => some (s, [])
  | op :: l => do
    let r ← s.stepM b op
    let r' ← runFromM b r.1 l
    return (r'.1, r.2 :: r'.2)

end KeychainIndex

namespace SparseChain
variable {P : Type} [LinearOrder P] [ChainPosition P]

/-- sparse_chain.rs:861-873 `prune_checkpoints`: `last_height + 1` on `u32` -/
def pruneCheckpointsM (b : Build) (c : SparseChain P) : Option (SparseChain P) :=
  match c.checkpointLimit with
  | none => some c
  | some limit =>
    match c.checkpoints.keys.reverse[limit]? with
    | none => some c
    | some lastHeight => (b.add32 lastHeight 1).map fun keepHeight =>
      { c with checkpoints := c.checkpoints.filter (fun h _ => decide (keepHeight ≤ h)) }

/-- sparse_chain.rs:440-446, the lower bound of the invalidation range: `h + 1` on `u32` -/
def invalidLbM (b : Build) (self update : SparseChain P) : Option Nat :=
  if lastUpdateCp update = none ∨ lastUpdateCp update = agreementPoint self update then some u32Max
  else match agreementPoint self update with
    | some h => b.add32 h 1
    | none => some 0

end SparseChain
end Verif
