import Verif.Model.Cli
import Verif.Spec.Tracker

/-!
# Specification vocabulary for the commands of bdk_cli_lib
-/

namespace Verif.Spec
open Verif Verif.Cli
variable {D P T : Type} [DescriptorOps D] [LinearOrder P] [ChainPosition P] [LinearOrder T] [AsTransaction T]

/-- the wallet has revealed index `i` of keychain `k`, and watches its script `spk` -/
def Knows (t : Tracker Keychain D P T) (k : Keychain) (i : Nat) (spk : Script) : Prop :=
  (∃ j, t.txoutIndex.lastRevealedIndex k = some j ∧ i ≤ j) ∧ t.txoutIndex.inner.spkAtIndex (toLex (k, i)) = some spk

/-- a new start at this point finds what the running program has, but for the marks of scripts reserved by a `Send` -/
def InSync (base : Tracker Keychain D P T) (w : World D P T) : Prop :=
  ∃ t', base.replay (diskOf w.trace) = some t' ∧ t'.chainGraph = w.tracker.chainGraph ∧
    SameButMarks w.tracker.txoutIndex t'.txoutIndex

/-- if nothing was written, then nothing that a new start needs was changed -/
def Lossless (w w' : World D P T) : Prop :=
  diskOf w'.trace = diskOf w.trace →
    w'.tracker.chainGraph = w.tracker.chainGraph ∧ SameButMarks w.tracker.txoutIndex w'.tracker.txoutIndex

/-- Whenever an address was shown, or a transaction was handed to the network, the database written before that moment
already told the wallet about that address, or about the script of every output of the transaction after the payment. -/
def Recoverable (base : Tracker Keychain D P T) (trace : List (Event P T)) : Prop :=
  (∀ pre post k i spk, trace = pre ++ Event.shown k i spk :: post →
    ∃ t', base.replay (diskOf pre) = some t' ∧ Knows t' k i spk) ∧
  (∀ pre post tx ok, trace = pre ++ Event.broadcast tx ok :: post →
    ∃ t', base.replay (diskOf pre) = some t' ∧ ∀ out ∈ tx.output.tail, ∃ k i, Knows t' k i out.spk)

/-- an address was shown or a transaction handed to the network -/
def Visible : Event P T → Prop
  | .shown .. => True
  | .broadcast .. => True
  | _ => False

variable {Key Ak Sec XPrv Msg : Type} [DecidableEq Key]

/-- the indices of keychain `k` that pay the change of the transactions on their way to the network -/
def pendingChange (k : Keychain) (jobs : List Job) : List Nat :=
  jobs.filterMap fun j => match j.flight.change with
    | some (k', i) => if k' = k then some i else none
    | none => none

/-- runs of the program from its first start with an empty database, interleaving threads and crashes in any way -/
inductive Run (env : Env D Key Ak Sec XPrv Msg T) (base : Tracker Keychain D P T) : World D P T → Prop where
  | init : Run env base ⟨base, [], []⟩
  | step {w w' : World D P T} (a : Act P T) : Run env base w → step env base w a = some w' → Run env base w'

/-- whether the action ends with a new start -/
def Crashes : Act P T → Prop
  | .restart => True
  | .crashIn .. => True
  | _ => False

/-- runs in which no action loses anything, new starts apart -/
inductive LosslessRun (env : Env D Key Ak Sec XPrv Msg T) (base : Tracker Keychain D P T) : World D P T → Prop where
  | init : LosslessRun env base ⟨base, [], []⟩
  | step {w w' : World D P T} (a : Act P T) : LosslessRun env base w → step env base w a = some w' → Lossless w w' ∨ Crashes a →
      LosslessRun env base w'

/-- the outcomes an action can lose data with: a failed write (except in the electrum example, which applies a scan only after
it was written), and a `Send` that does not end in a transaction with change -/
def MayLose (w w' : World D P T) : Act P T → Prop
  | .address _ ok => ok = false
  | .sendPrepare _ _ _ _ ok => ok = false ∨ ¬ ∃ f, w'.jobs = w.jobs ++ [⟨f, none⟩] ∧ f.change.isSome = true
  | .sendFinish _ _ ok => ok = false
  | .syncEsplora _ _ ok => ok = false
  | _ => False

end Verif.Spec
