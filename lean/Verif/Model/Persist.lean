import Verif.Model.Tracker

/-!
# Model of `Persist` (bdk_chain/src/keychain/persist.rs)
-/

namespace Verif

/-- persist.rs:62-87 `trait PersistBackend`: the effect of `append_changeset` on the backend, and whether it reported success.
The backend is arbitrary; its failures are part of this function. -/
structure PersistBackend (B E C : Type) where
  append : B → C → B × Except E Unit

/-- persist.rs:21-24 `struct Persist` -/
structure Persist (K P T B : Type) [LinearOrder K] [LinearOrder P] [LinearOrder T] where
  backend : B
  stage : KeychainChangeSet K P T

namespace Persist
variable {K P T B E : Type} [LinearOrder K] [LinearOrder P] [LinearOrder T]

/-- persist.rs:28-33 `new` -/
def new (b : B) : Persist K P T B := ⟨b, .empty⟩

/-- persist.rs:38-44 `stage` -/
def stageChangeset (p : Persist K P T B) (c : KeychainChangeSet K P T) : Persist K P T B :=
  { p with stage := p.stage.append c }

/-- persist.rs:47-49 `staged` -/
def staged (p : Persist K P T B) : KeychainChangeSet K P T := p.stage

/-- persist.rs:54-58 `commit` -/
def commit (be : PersistBackend B E (KeychainChangeSet K P T)) (p : Persist K P T B) : Persist K P T B × Except E Unit :=
  match be.append p.backend p.stage with
  | (b, .error e) => ({ p with backend := b }, .error e)
  | (b, .ok ()) => (⟨b, .empty⟩, .ok ())

/-- persist.rs:89-104 `impl PersistBackend for ()` -/
def unitBackend : PersistBackend Unit Unit (KeychainChangeSet K P T) := ⟨fun _ _ => ((), .ok ())⟩

/-- the calls of the owner -/
inductive Op (K P T : Type) [LinearOrder K] [LinearOrder P] [LinearOrder T] where
  | stage (c : KeychainChangeSet K P T)
  | commit

/-- one call; the second component are the changesets the backend was given, with its answer -/
def step (be : PersistBackend B E (KeychainChangeSet K P T)) (p : Persist K P T B) :
    Op K P T → Persist K P T B × List (KeychainChangeSet K P T × Except E Unit)
  | .stage c => (p.stageChangeset c, [])
  | .commit => ((p.commit be).1, [(p.stage, (p.commit be).2)])

/-- a history of calls and the writes the backend saw -/
def run (be : PersistBackend B E (KeychainChangeSet K P T)) (p : Persist K P T B) :
    List (Op K P T) → Persist K P T B × List (KeychainChangeSet K P T × Except E Unit)
  | [] => (p, [])
  | op :: ops =>
    let r := p.step be op
    let r' := run be r.1 ops
    (r'.1, r.2 ++ r'.2)

end Persist
end Verif
