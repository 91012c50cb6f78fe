import Verif.Model.Process
import Verif.Spec.Cli
import Verif.Spec.FileStore
import Verif.Spec.KeychainIndex

/-!
# Specification vocabulary for whole runs of the example programs
-/

namespace Verif.Spec
open Verif Verif.Cli KeychainStore DescriptorOps
variable {D Key Ak Sec XPrv Msg T P : Type} [DescriptorOps D] [LinearOrder P] [ChainPosition P] [LinearOrder T] [AsTransaction T]
  [DecidableEq Key]

/-- what a program finds in the file: the changesets, and whether something unreadable follows them; `none` if it is not a
database.  No file at all is as good as an empty database. -/
def found (cd : Codec (KeychainChangeSet Keychain P T)) : Option Bytes → Option (List (KeychainChangeSet Keychain P T) × Option IterError)
  | none => some ([], none)
  | some b => contents cd b

/-- `l` is what is left of the writes seen in a history: all that succeeded, and perhaps some of those that did not -/
inductive Survives : List (Event P T) → List (KeychainChangeSet Keychain P T) → Prop where
  | nil : Survives [] []
  | stored {tr l c} : Survives tr l → Survives (tr ++ [.stored c]) (l ++ [c])
  | lost {tr l c} : Survives tr l → Survives (tr ++ [.storeFailed c]) l
  | kept {tr l c} : Survives tr l → Survives (tr ++ [.storeFailed c]) (l ++ [c])
  | shown {tr l k i spk} : Survives tr l → Survives (tr ++ [.shown k i spk]) l
  | broadcast {tr l tx ok} : Survives tr l → Survives (tr ++ [.broadcast tx ok]) l

/-- Histories without a double fault: a run that finds something unreadable at the end of the file (which an earlier run that
died, or failed, while writing has left there) does not die, or fail, in its own first write. -/
inductive CleanHistory [DecidableEq D] (env : Env D Key Ak Sec XPrv Msg T) (cd : Codec (KeychainChangeSet Keychain P T)) (external : D)
    (internal : Option D) : List (Event P T) → Option Bytes → Prop where
  | init : CleanHistory env cd external internal [] none
  | run {tr es disk disk'} : CleanHistory env cd external internal tr disk → Process env cd external internal disk es disk' →
      (∀ l e, found cd disk = some (l, some e) → ∀ pre c post, es = pre ++ .storeFailed c :: post → diskOf pre ≠ []) →
      CleanHistory env cd external internal (tr ++ es) disk'

/-- the descriptors of the wallet never derive the same script twice -/
def DistinctScripts (external : D) (internal : Option D) : Prop :=
  ∀ k k' d d' i j spk, (k = Keychain.external ∧ d = external ∨ k = .internal ∧ internal = some d) →
    (k' = Keychain.external ∧ d' = external ∨ k' = .internal ∧ internal = some d') → i ≤ cap d → j ≤ cap d' →
    spkAt d i = some spk → spkAt d' j = some spk → k = k' ∧ i = j

/-- the changeset only has indices of keychains of this wallet that can be derived -/
def InRange (external : D) (internal : Option D) (c : KeychainChangeSet Keychain P T) : Prop :=
  ∀ k i, c.derivationIndices.get k = some i →
    ∃ d, (k = .external ∧ d = external ∨ k = .internal ∧ internal = some d) ∧ i ≤ cap d

/-- a `Send` whose transaction has change, or a command that is not a `Send` -/
def WithChange (cmd : Command P T) (es : List (Event P T)) : Prop :=
  match cmd with
  | .send .. => ∃ tx ok, Event.broadcast tx ok ∈ es ∧ tx.output.tail ≠ []
  | _ => True

/-- what was received from the server names only keychains of this wallet, and indices that can be derived -/
def ScanInRange (external : D) (internal : Option D) : Command P T → Prop
  | .syncElectrum scan _ | .syncEsplora scan _ => ∀ k i, scan.lastActiveIndices.get k = some i →
      ∃ d, (k = .external ∧ d = external ∨ k = .internal ∧ internal = some d) ∧ i ≤ cap d
  | _ => True

end Verif.Spec
