import Verif.Spec.KeychainIndex

/-!
# Specification for C81: what scanning a set of outputs can find

An index watches the scripts that are stored in it.  When an output of the set pays to a watched script, the scripts up to
`lookahead` past it become watched too.  `Watched` is the closure, defined without any order of scanning.
-/

namespace Verif.Spec
open Verif
variable {K D : Type} [LinearOrder K] [DescriptorOps D]

/-- some output of `l` pays to index `j` of the keychain `k` -/
def Paid (s : KeychainIndex K D) (l : List (OutPoint × TxOut)) (k : K) (j : Nat) : Prop :=
  ∃ d, s.keychains.get k = some d ∧ ∃ e ∈ l, spkAt d j = some e.2.spk

/-- the scripts that can come to be watched when outputs of `l` are scanned into `s` -/
inductive Watched (s : KeychainIndex K D) (l : List (OutPoint × TxOut)) : K → Nat → Prop
  | stored {k i} : stored s k i ≠ none → Watched s l k i
  | further {k j d i} : Watched s l k j → Paid s l k j → s.keychains.get k = some d → i ≤ j + s.lookaheadOf k → i ≤ cap d →
      Watched s l k i

/-- `s'` results from `s` by any number of scans of any lists of outputs of `l`, in any order, with repetitions -/
inductive Scans (s : KeychainIndex K D) (l : List (OutPoint × TxOut)) : KeychainIndex K D → Prop
  | start : Scans s l s
  | scan {s' l' r} : Scans s l s' → (∀ e ∈ l', e ∈ l) → s'.scan l' = some r → Scans s l r.1

/-- `n` scans of the same list -/
def rescan (l : List (OutPoint × TxOut)) : Nat → KeychainIndex K D → Option (KeychainIndex K D)
  | 0, s => some s
  | n + 1, s => (s.scan l).bind (fun r => rescan l n r.1)

/-- an outpoint comes with one output -/
def OneOutput (l : List (OutPoint × TxOut)) : Prop := ∀ o x y, (o, x) ∈ l → (o, y) ∈ l → x = y

end Verif.Spec
