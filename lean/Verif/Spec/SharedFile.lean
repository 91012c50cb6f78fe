import Verif.Model.SharedFile
import Verif.Spec.FileStore

/-!
# Specification vocabulary: several stores on one file
-/

namespace Verif.Spec
open Verif
variable {K P T : Type} [LinearOrder K] [LinearOrder P] [LinearOrder T]

/-- the store a call is made on -/
def storeOf : SharedOp K P T → Nat
  | .open h _ | .read h | .append h _ => h

/-- the changesets appended by a history, in order, by whatever store -/
def sharedAppends (ops : List (SharedOp K P T)) : List (KeychainChangeSet K P T) :=
  ops.filterMap fun | .append _ c => some c | _ => none

/-- Store `h` has read the file to its end, and since then no other store has appended to it (and `h` was not opened anew). -/
def UpToDate (ops : List (SharedOp K P T)) (h : Nat) : Prop :=
  ∃ a b, ops = a ++ .read h :: b ∧ (∀ h' c, SharedOp.append h' c ∈ b → h' = h) ∧ ∀ x, SharedOp.open h x ∉ b

/-- only open stores are used, and a store only appends while it is up to date -/
def Disciplined (ops : List (SharedOp K P T)) : Prop :=
  (∀ a h b, ops = a ++ .read h :: b → ∃ x, SharedOp.open h x ∈ a) ∧
  ∀ a h c b, ops = a ++ .append h c :: b → UpToDate a h

end Verif.Spec
