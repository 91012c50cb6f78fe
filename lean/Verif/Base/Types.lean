import Verif.Base.OMap
import Mathlib.Order.Fin.Basic

/-!
# Basic chain data types (bdk_chain/src/chain_data.rs, bdk_chain/src/sparse_chain.rs trait ChainPosition)
-/

namespace Verif

/-- `u32::MAX` -/
def u32Max : Nat := 4294967295
/-- `u64::MAX` -/
def u64Max : Nat := 18446744073709551615

/-- `bitcoin::Txid`: 32 bytes with the byte-lexicographic order.  The order on 256 bit numbers is that order. -/
abbrev Txid := Fin (2 ^ 256)
/-- `bitcoin::BlockHash`; only equality is used by the code. -/
abbrev BlockHash := Nat

/-- bdk_chain/src/sparse_chain.rs:935-937 `min_txid` -/
def minTxid : Txid := ⟨0, by decide⟩
/-- bdk_chain/src/sparse_chain.rs:939-941 `max_txid` -/
def maxTxid : Txid := ⟨2 ^ 256 - 1, by decide⟩

theorem minTxid_le (t : Txid) : minTxid ≤ t := Nat.zero_le _
theorem le_maxTxid (t : Txid) : t ≤ maxTxid := by
  have := t.2
  show t.1 ≤ 2 ^ 256 - 1
  omega

/-- bdk_chain/src/chain_data.rs:15-18 `enum TxHeight` (`u32` heights are `Nat`). -/
inductive TxHeight where
  | confirmed (h : Nat)
  | unconfirmed
deriving DecidableEq, Repr

namespace TxHeight
/-- derived `Ord`: variants in declaration order, then the payload (chain_data.rs:9) -/
def leB : TxHeight → TxHeight → Bool
  | confirmed a, confirmed b => decide (a ≤ b)
  | confirmed _, unconfirmed => true
  | unconfirmed, confirmed _ => false
  | unconfirmed, unconfirmed => true

instance : LE TxHeight := ⟨fun a b => leB a b = true⟩
instance : LT TxHeight := ⟨fun a b => leB a b = true ∧ ¬ leB b a = true⟩
instance : DecidableLE TxHeight := fun a b => inferInstanceAs (Decidable (leB a b = true))
instance : DecidableLT TxHeight := fun a b => inferInstanceAs (Decidable (leB a b = true ∧ ¬ leB b a = true))

theorem le_def {a b : TxHeight} : a ≤ b ↔ leB a b = true := Iff.rfl

instance : LinearOrder TxHeight where
  le_refl a := by cases a <;> simp [le_def, leB]
  le_trans a b c := by cases a <;> cases b <;> cases c <;> simp [le_def, leB]; omega
  le_antisymm a b := by cases a <;> cases b <;> simp [le_def, leB]; omega
  le_total a b := by cases a <;> cases b <;> simp [le_def, leB]; omega
  lt_iff_le_not_ge a b := Iff.rfl
  toDecidableLE := inferInstance
  toDecidableLT := inferInstance
  toDecidableEq := inferInstance

@[simp] theorem confirmed_le {a b : Nat} : confirmed a ≤ confirmed b ↔ a ≤ b := by
  simp [le_def, leB]
@[simp] theorem confirmed_lt {a b : Nat} : confirmed a < confirmed b ↔ a < b := by
  rw [lt_iff_le_not_ge, confirmed_le, confirmed_le]; omega
@[simp] theorem confirmed_lt_unconfirmed {a : Nat} : confirmed a < unconfirmed := by
  rw [lt_iff_le_not_ge]; simp [le_def, leB]
@[simp] theorem le_unconfirmed {a : TxHeight} : a ≤ unconfirmed := by
  cases a <;> simp [le_def, leB]
@[simp] theorem not_unconfirmed_lt {a : TxHeight} : ¬ unconfirmed < a := not_lt.2 le_unconfirmed
@[simp] theorem not_unconfirmed_le {a : Nat} : ¬ unconfirmed ≤ confirmed a := not_le.2 confirmed_lt_unconfirmed

/-- chain_data.rs:68-70 `is_confirmed` -/
def isConfirmed : TxHeight → Bool
  | confirmed _ => true
  | unconfirmed => false
end TxHeight

/-- bdk_chain/src/chain_data.rs:80-83 `enum ConfirmationTime`; `time : u64`. -/
inductive ConfirmationTime where
  | confirmed (height : Nat) (time : Fin (2 ^ 64))
  | unconfirmed
deriving DecidableEq, Repr

namespace ConfirmationTime
/-- derived `Ord` (chain_data.rs:74): lexicographic in (height, time) -/
def leB : ConfirmationTime → ConfirmationTime → Bool
  | confirmed a t, confirmed b u => decide (a < b) || (decide (a = b) && decide (t.1 ≤ u.1))
  | confirmed _ _, unconfirmed => true
  | unconfirmed, confirmed _ _ => false
  | unconfirmed, unconfirmed => true

instance : LE ConfirmationTime := ⟨fun a b => leB a b = true⟩
instance : LT ConfirmationTime := ⟨fun a b => leB a b = true ∧ ¬ leB b a = true⟩
instance : DecidableLE ConfirmationTime := fun a b => inferInstanceAs (Decidable (leB a b = true))
instance : DecidableLT ConfirmationTime := fun a b => inferInstanceAs (Decidable (leB a b = true ∧ ¬ leB b a = true))

theorem le_def {a b : ConfirmationTime} : a ≤ b ↔ leB a b = true := Iff.rfl

instance : LinearOrder ConfirmationTime where
  le_refl a := by cases a <;> simp [le_def, leB]
  le_trans a b c := by cases a <;> cases b <;> cases c <;> simp [le_def, leB]; omega
  le_antisymm a b := by
    cases a <;> cases b <;> simp [le_def, leB, Fin.ext_iff]; omega
  le_total a b := by cases a <;> cases b <;> simp [le_def, leB]; omega
  lt_iff_le_not_ge a b := Iff.rfl
  toDecidableLE := inferInstance
  toDecidableLT := inferInstance
  toDecidableEq := inferInstance
end ConfirmationTime

/-- bdk_chain/src/sparse_chain.rs:946-962 `trait ChainPosition` -/
class ChainPosition (P : Type) [LinearOrder P] where
  /-- `fn height(&self)` -/
  height : P → TxHeight
  /-- `fn max_ord_of_height(height)` -/
  maxOrd : TxHeight → P
  /-- `fn min_ord_of_height(height)` -/
  minOrd : TxHeight → P

/-- The contract stated in the docs of the trait (sparse_chain.rs:943-958): "implementations must be `Ord`
by `TxHeight` first", and `min/max_ord_of_height` are the bounds of the positions of that height.
Proved for both implementations below (property C16). -/
class LawfulChainPosition (P : Type) [LinearOrder P] [ChainPosition P] : Prop where
  height_mono : ∀ {a b : P}, a ≤ b → ChainPosition.height a ≤ ChainPosition.height b
  height_max : ∀ h, ChainPosition.height (ChainPosition.maxOrd h : P) = h
  height_min : ∀ h, ChainPosition.height (ChainPosition.minOrd h : P) = h
  le_max : ∀ p : P, p ≤ ChainPosition.maxOrd (ChainPosition.height p)
  min_le : ∀ p : P, ChainPosition.minOrd (ChainPosition.height p) ≤ p

/-- chain_data.rs:53-65 -/
instance : ChainPosition TxHeight where
  height p := p
  maxOrd h := h
  minOrd h := h

/-- chain_data.rs:85-112 -/
instance : ChainPosition ConfirmationTime where
  height
    | .confirmed h _ => .confirmed h
    | .unconfirmed => .unconfirmed
  maxOrd
    | .confirmed h => .confirmed h ⟨2 ^ 64 - 1, by decide⟩
    | .unconfirmed => .unconfirmed
  minOrd
    | .confirmed h => .confirmed h ⟨0, by decide⟩
    | .unconfirmed => .unconfirmed

/-- sparse_chain.rs:959-961 `fn unconfirmed() -> Self` -/
def unconfirmedPos (P : Type) [LinearOrder P] [ChainPosition P] : P := ChainPosition.maxOrd .unconfirmed

instance : LawfulChainPosition TxHeight where
  height_mono h := h
  height_max _ := rfl
  height_min _ := rfl
  le_max _ := le_refl _
  min_le _ := le_refl _

instance : LawfulChainPosition ConfirmationTime where
  height_mono {a b} h := by
    cases a <;> cases b <;>
      simp [ConfirmationTime.le_def, ConfirmationTime.leB, ChainPosition.height, TxHeight.le_def, TxHeight.leB] at h ⊢
    omega
  height_max h := by cases h <;> rfl
  height_min h := by cases h <;> rfl
  le_max p := by
    cases p with
    | unconfirmed => exact le_refl _
    | confirmed h t =>
      simp [ConfirmationTime.le_def, ConfirmationTime.leB, ChainPosition.height, ChainPosition.maxOrd]
      have := t.2; omega
  min_le p := by
    cases p with
    | unconfirmed => exact le_refl _
    | confirmed h t =>
      simp [ConfirmationTime.le_def, ConfirmationTime.leB, ChainPosition.height, ChainPosition.minOrd]

/-- chain_data.rs:127-132 `struct BlockId` -/
structure BlockId where
  height : Nat
  hash : BlockHash
deriving DecidableEq, Repr

end Verif
