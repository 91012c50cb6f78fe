import Verif.Model.FileStore

/-!
# Specification vocabulary for persistence
-/

namespace Verif.Spec
open Verif
variable {K P T : Type} [LinearOrder K] [LinearOrder P] [LinearOrder T]

/-- several changesets merged into one, in order -/
def merged (l : List (KeychainChangeSet K P T)) : KeychainChangeSet K P T := l.foldl .append .empty

/-- the changesets staged by a history, in order -/
def stagedBy (ops : List (Persist.Op K P T)) : List (KeychainChangeSet K P T) :=
  ops.filterMap (fun | .stage c => some c | .commit => none)

/-- the writes the backend confirmed, in order -/
def confirmedWrites {E : Type} (log : List (KeychainChangeSet K P T × Except E Unit)) : List (KeychainChangeSet K P T) :=
  log.filterMap (fun w => match w.2 with | .ok _ => some w.1 | .error _ => none)

/-- the changesets appended to a file by a history, in order -/
def appendedBy (ops : List (KeychainStore.Op K P T)) : List (KeychainChangeSet K P T) :=
  ops.filterMap (fun | .append c => some c | .read => none)

/-- the ones that say something -/
def nonEmpty (l : List (KeychainChangeSet K P T)) : List (KeychainChangeSet K P T) := l.filter (fun c => !c.isEmpty)

/-- An encoding the store can work with: lawful on the changesets that can occur, and no entry is read from nothing.
`C42_bincode` gives one. -/
structure GoodCodec (cd : Codec (KeychainChangeSet K P T)) (dom : KeychainChangeSet K P T → Prop) : Prop where
  lawful : cd.Lawful dom
  nil : cd.dec [] = .eof

end Verif.Spec
