import Verif.Model.KeychainIndex

/-!
# The unit tests of the repository, run on the model: bdk_chain/tests/test_keychain_txout_index.rs

These are not proofs of properties, but a check that the model behaves as the authors of the code say that the code does: each
example is one of their tests, transcribed.  A `guard` that fails (or a panic) makes the whole `none`.
-/

namespace Verif.Tests.KeychainIndex
open Verif

/-- the three descriptors of the tests: external and internal ranged ones, and one without wildcard -/
inductive Desc where
  | ext | int | fixed
deriving DecidableEq

instance : DescriptorOps Desc where
  hasWildcard | .fixed => false | _ => true
  spkAt
    | .ext, i => some (3 * i)
    | .int, i => some (3 * i + 1)
    | .fixed, _ => some 2

/-- `TestKeychain::External` = 0, `TestKeychain::Internal` = 1 -/
abbrev Index := Verif.KeychainIndex Nat Desc

/-- `init_txout_index` -/
def init : Option Index := do ((← KeychainIndex.empty.addKeychain 0 Desc.ext).addKeychain 1 Desc.int)

def spkE (i : Nat) : Nat × Script := (i, 3 * i)
def spkI (i : Nat) : Nat × Script := (i, 3 * i + 1)
def adds (l : List (Nat × Nat)) : DerivationAdditions Nat := OMap.ofList l

/-- `mark_used` for each index, asserted to return `true` if `chk` -/
def markAll (x : Index) (l : List Nat) (chk : Bool) : Option Index :=
  l.foldlM (fun x i => do
    let r := x.markUsed 0 i
    guard (!chk || r.2)
    return r.1) x

/-- `test_set_all_derivation_indices` -/
example : (do
    let x ← init
    let upTo := adds [(0, 12), (1, 24)]
    let r1 ← x.revealToTargetMulti upTo
    guard (r1.2.2 = upTo)
    guard (r1.1.lastRevealed = upTo)
    let r2 ← r1.1.revealToTargetMulti upTo
    guard (r2.2.2 = OMap.empty)) = some () := by decide +kernel

/-- `test_lookahead`: the state before the loop -/
def look0 : Option Index := do
  let x ← init
  let x ← (List.range 11).foldlM (fun x n => x.setLookahead 0 n) x
  ((List.range 21).filter (fun v => v % 2 = 0)).foldlM (fun x n => x.setLookahead 1 n) x

/-- the loop of `test_lookahead` -/
def look1 (x : Index) (index : Nat) : Option Index := do
  let r ← x.revealToTarget 0 index
  guard (r.2.1 = [spkE index])
  guard (r.2.2 = adds [(0, index)])
  guard (r.1.inner.spks.entries.length = 10 + 20 + index + 1)
  guard ((← r.1.revealedSpksOfKeychain 0).length = index + 1)
  guard ((← r.1.revealedSpksOfKeychain 1).length = 0)
  guard ((← r.1.unusedSpksOfKeychain 0).length = index + 1)
  guard ((← r.1.unusedSpksOfKeychain 1).length = 0)
  return r.1

/-- `test_lookahead`, up to the loop over scanned transactions -/
def look2 : Option Index := do
  let x ← look0
  guard (x.inner.spks.entries.length = 30)
  let x ← (List.range 20).foldlM look1 x
  let r ← x.revealToTarget 1 24
  guard (r.2.1 = (List.range 25).map spkI)
  guard (r.2.2 = adds [(1, 24)])
  guard (r.1.inner.spks.entries.length = 10 + 20 + 20 + 25)
  guard ((← r.1.revealedSpksOfKeychain 1).length = 25)
  guard (r.1.lastRevealedIndex 0 = some 19)
  guard (r.1.lastRevealedIndex 1 = some 24)
  return r.1

/-- the last loop of `test_lookahead`; the transaction has txid `1000 + i` -/
def look3 (x : Index) (i : Nat) : Option Index := do
  let t : Txid := Fin.ofNat _ (1000 + i)
  let r ← x.scan [(⟨t, 0⟩, ⟨10000, 3 * i⟩), (⟨t, 1⟩, ⟨10000, 3 * (i + 5) + 1⟩)]
  guard (r.2 = OMap.empty)
  guard (r.1.lastRevealedIndex 0 = some 19)
  guard (r.1.lastRevealedIndex 1 = some 24)
  guard ((← r.1.revealedSpksOfKeychain 0).length = 20)
  guard ((← r.1.revealedSpksOfKeychain 1).length = 25)
  return r.1

/-- `test_lookahead` -/
example : (look2.bind (fun x => (List.range 20).foldlM look3 x)).isSome := by decide +kernel

/-- `test_wildcard_derivations` -/
example : (do
    let x ← init
    guard (x.nextIndex 0 = some (0, true))
    let r ← x.revealNextSpk 0
    guard (r.2 = (spkE 0, adds [(0, 0)]))
    let r ← r.1.nextUnusedSpk 0
    guard (r.2 = (spkE 0, OMap.empty))
    let r ← r.1.revealToTarget 0 25
    let x ← markAll r.1 (List.range 16 ++ [17, 20, 23]) true
    guard (x.nextIndex 0 = some (26, true))
    let r ← x.revealNextSpk 0
    guard (r.2 = (spkE 26, adds [(0, 26)]))
    let r ← r.1.nextUnusedSpk 0
    guard (r.2 = (spkE 16, OMap.empty))
    let x ← markAll r.1 (List.range 27) false
    let r ← x.nextUnusedSpk 0
    guard (r.2 = (spkE 27, adds [(0, 27)]))) = some () := by decide +kernel

/-- `test_non_wildcard_derivations` -/
example : (do
    let x : Index ← KeychainIndex.empty.addKeychain 0 Desc.fixed
    guard (x.nextIndex 0 = some (0, true))
    let r ← x.revealNextSpk 0
    guard (r.2 = ((0, 2), adds [(0, 0)]))
    let r ← r.1.nextUnusedSpk 0
    guard (r.2 = ((0, 2), OMap.empty))
    guard (r.1.nextIndex 0 = some (0, false))
    let x := (r.1.markUsed 0 0).1
    let r ← x.revealNextSpk 0
    guard (r.2 = ((0, 2), OMap.empty))
    let r ← r.1.nextUnusedSpk 0
    guard (r.2 = ((0, 2), OMap.empty))
    let r ← r.1.revealToTarget 0 200
    guard (r.2 = ([], OMap.empty))) = some () := by decide +kernel

/-- `test_wildcard_reserve_spk_functions` -/
example : (do
    let x ← init
    guard (x.nextIndex 0 = some (0, true))
    let r ← x.revealAndReserveNextSpk 0
    guard (r.2 = (spkE 0, adds [(0, 0)]))
    let r ← r.1.reserveNextUnusedSpk 0
    guard (r.2 = (spkE 1, adds [(0, 1)]))
    let r ← r.1.revealToTarget 0 25
    let x ← markAll r.1 (List.range' 2 14 ++ [17, 20, 23]) true
    guard (x.nextIndex 0 = some (26, true))
    let r ← x.reserveNextUnusedSpk 0
    guard (r.2 = (spkE 16, OMap.empty))
    let r ← r.1.nextUnusedSpk 0
    guard (r.2 = (spkE 18, OMap.empty))
    let r ← r.1.reserveNextUnusedSpk 0
    guard (r.2 = (spkE 18, OMap.empty))
    let r ← r.1.nextUnusedSpk 0
    guard (r.2 = (spkE 19, OMap.empty))
    let x ← markAll r.1 (List.range 26) false
    let r ← x.revealAndReserveNextSpk 0
    guard (r.2 = (spkE 26, adds [(0, 26)]))
    let r ← r.1.reserveNextUnusedSpk 0
    guard (r.2 = (spkE 27, adds [(0, 27)]))) = some () := by decide +kernel

/-- one case of `test_wildcard_reserve_spk_functions2` -/
def reserveCase (count : Nat) (reserved : List Nat) (expReveal expReserve : Nat) : Option Unit := do
  let x ← init
  let r ← x.revealToTarget 0 count
  let x ← markAll r.1 reserved false
  let r ← x.revealAndReserveNextSpk 0
  guard (r.2.1 = spkE expReveal)
  let r ← r.1.reserveNextUnusedSpk 0
  guard (r.2.1 = spkE expReserve)

/-- `test_wildcard_reserve_spk_functions2` -/
example : reserveCase 10 [0, 1, 5, 6] 11 2 = some () ∧ reserveCase 15 [0] 16 1 = some () ∧ reserveCase 5 (List.range 6) 6 7 = some () ∧
    reserveCase 0 [0] 1 2 = some () ∧ reserveCase 0 [] 1 0 = some () := by decide +kernel

/-- `test_non_wildcard_reserve_spk_functions` -/
example : (do
    let x : Index ← KeychainIndex.empty.addKeychain 0 Desc.fixed
    guard (x.nextIndex 0 = some (0, true))
    let r ← x.revealAndReserveNextSpk 0
    guard (r.2 = ((0, 2), adds [(0, 0)]))
    let r ← r.1.reserveNextUnusedSpk 0
    guard (r.2 = ((0, 2), OMap.empty))
    guard (r.1.nextIndex 0 = some (0, false))
    let x := (r.1.markUsed 0 0).1
    let r ← x.revealAndReserveNextSpk 0
    guard (r.2 = ((0, 2), OMap.empty))
    let r ← r.1.reserveNextUnusedSpk 0
    guard (r.2 = ((0, 2), OMap.empty))
    let r ← r.1.revealToTarget 0 200
    guard (r.2 = ([], OMap.empty))) = some () := by decide +kernel

end Verif.Tests.KeychainIndex
