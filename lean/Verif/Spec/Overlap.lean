import Verif.Model.Overlap

/-!
# Vocabulary of C83
-/

namespace Verif.Spec
open Verif

/-- all that the store `h` writes by these calls, in order -/
def streamOf (h : Nat) : List SysCall → Bytes
  | [] => []
  | .write h' b :: l => if h' = h then b ++ streamOf h l else streamOf h l
  | _ :: l => streamOf h l

/-- no store reads again in these calls -/
def NoReads (l : List SysCall) : Prop := ∀ h, SysCall.read h ∉ l

/-- in these calls every open store appends at most once, in whatever pieces, and all that append write the same bytes `e` -/
def AllWrite (pos : Nat → Option Nat) (e : Bytes) (l : List SysCall) : Prop :=
  ∀ h, pos h ≠ none → l.filter (fun x => x.store = h) = [] ∨
    ∃ pieces : List Bytes, pieces.flatten = e ∧ l.filter (fun x => x.store = h) = appendCalls h pieces

end Verif.Spec
