import Verif.Model.KeychainIndex

/-!
# The methods of `KeychainTxOutIndex` that range over all keychains (bdk_chain/src/keychain/txout_index.rs)

Each returns a `BTreeMap` collected from an iterator over the keychains; an iterator it contains is modelled by the list of what it
yields.  `none` = panic.
-/

namespace Verif.KeychainIndex
variable {K D : Type} [LinearOrder K] [DescriptorOps D]

/-- txout_index.rs:594-602 `last_used_indices` -/
def lastUsedIndices (s : KeychainIndex K D) : Option (OMap K Nat) :=
  s.keychains.keys.foldlM (fun m k => (s.lastUsedIndex k).map fun r => match r with
    | some i => m.insert k i
    | none => m) OMap.empty

/-- txout_index.rs:270-277 `revealed_spks_of_all_keychains` -/
def revealedSpksOfAllKeychains (s : KeychainIndex K D) : Option (OMap K (List (Nat × Script))) :=
  s.keychains.keys.foldlM (fun m k => (s.revealedSpksOfKeychain k).map fun l => m.insert k l) OMap.empty

/-- txout_index.rs:155-157 `lookaheads` -/
def lookaheads (s : KeychainIndex K D) : OMap K Nat := s.lookahead

end Verif.KeychainIndex
