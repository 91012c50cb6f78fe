import Verif.Props.FileStore

/-!
# The unit tests of the repository, run on the model: bdk_file_store/tests/test_file_store.rs, and those inside bdk_chain/src

These are not proofs of properties, but a check that the model behaves as the authors of the code say that the code does: each
example is one of their tests, transcribed.
-/

namespace Verif.Tests.FileStore
open Verif Verif.Props

deriving instance DecidableEq for Except

/-- `magic_bytes` -/
example : magicBytes = "bdkfs0000000".toUTF8.data.toList ∧ magicBytes.length = magicLen := by decide +kernel

/-- `new_fails_if_file_is_too_short` -/
example : (KeychainStore.new ⟨magicBytes.take (magicLen - 1), 0⟩).2 = .error .io := by decide +kernel

/-- `new_fails_if_magic_bytes_are_invalid` -/
example : (KeychainStore.new ⟨"ldkfs0000000".toUTF8.data.toList, 0⟩).2 = .error (.invalidMagicBytes "ldkfs0000000".toUTF8.data.toList) := by
  decide +kernel

/-- `append_changeset_truncates_invalid_bytes` (with 300 instead of 2000 bytes): the first read fails with a decoding error; after
the append the file is the magic bytes and the entry -/
example :
    (let cs : DemoCS := ⟨OMap.ofList [(0, 21)], CGChangeSet.empty⟩
    match (KeychainStore.new ⟨magicBytes ++ List.replicate 288 255, 0⟩).2 with
    | .error _ => false
    | .ok s =>
      match KeychainStore.next demoCodec (s.seekTo magicLen) with
      | (s', some (.error .bad)) => decide ((KeychainStore.append demoCodec s' cs .none).1.bytes = magicBytes ++ demoCodec.enc cs)
      | _ => false) = true := by decide +kernel

/-- keychain.rs:275 `append_keychain_derivation_indices` -/
example :
    (let lhs : DemoCS := ⟨OMap.ofList [(1, 7), (2, 0), (3, 3)], CGChangeSet.empty⟩
    let rhs : DemoCS := ⟨OMap.ofList [(1, 3), (2, 5), (4, 4)], CGChangeSet.empty⟩
    (lhs.append rhs).derivationIndices.entries) = [(1, 7), (2, 5), (3, 3), (4, 4)] := by decide +kernel

/-- sparse_chain.rs:964-1008 `verify_chain_position`: here for all heights -/
theorem verify_chain_position {P : Type} [LinearOrder P] [ChainPosition P] [LawfulChainPosition P] {a b : TxHeight} (h : a < b) :
    (ChainPosition.minOrd a : P) ≤ ChainPosition.maxOrd a ∧ (ChainPosition.maxOrd a : P) ≤ ChainPosition.minOrd b := by
  constructor
  · have := LawfulChainPosition.min_le (ChainPosition.maxOrd a : P)
    rwa [LawfulChainPosition.height_max] at this
  · by_contra hc
    have := LawfulChainPosition.height_mono (le_of_lt (not_le.mp hc))
    rw [LawfulChainPosition.height_max, LawfulChainPosition.height_min] at this
    exact absurd h (not_lt.mpr this)

end Verif.Tests.FileStore
