import Verif.Model.KeychainIndex

/-!
# Specification vocabulary for `KeychainTxOutIndex`
-/

namespace Verif.Spec
open Verif
variable {K D : Type} [LinearOrder K] [DescriptorOps D]

/-- the largest index the code derives for the descriptor -/
def cap (d : D) : Nat := if hasWildcard d then bip32MaxIndex else 0

/-- all the indices of the descriptor can be derived -/
def Derivable (d : D) : Prop := ∀ i, i ≤ cap d → spkAt d i ≠ none

/-- all descriptors of the index are derivable -/
def AllDerivable (s : KeychainIndex K D) : Prop := ∀ k d, s.keychains.get k = some d → Derivable d

/-- no script is derived twice, neither within a keychain nor by two of them -/
def NoCollision (s : KeychainIndex K D) : Prop :=
  ∀ k d i k' d' j spk, s.keychains.get k = some d → s.keychains.get k' = some d' → i ≤ cap d → j ≤ cap d' →
    spkAt d i = some spk → spkAt d' j = some spk → k = k' ∧ i = j

/-- the script stored for a derivation index -/
def stored (s : KeychainIndex K D) (k : K) (i : Nat) : Option Script := s.inner.spkAtIndex (toLex (k, i))

/-- number of revealed scripts -/
def numRevealed (s : KeychainIndex K D) (k : K) : Nat :=
  match s.lastRevealedIndex k with
  | some i => i + 1
  | none => 0

end Verif.Spec
