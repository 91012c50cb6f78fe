import Verif.Model.SpkIndex

/-!
# Specification vocabulary for `SpkTxOutIndex`, in terms of the calls made so far (oldest first)
-/

namespace Verif.Spec
open Verif SpkIndex
variable {I : Type} [LinearOrder I]

/-- `i` is the index given with the script the first time the script was inserted -/
def FirstIndex (h : List (SpkIndex.Op I)) (s : Script) (i : I) : Prop :=
  ∃ h1 h2, h = h1 ++ .insertSpk i s :: h2 ∧ ∀ j, .insertSpk j s ∉ h1

/-- output `x` at `o` was scanned at a time when its script was already inserted, with index `i` -/
def Matched (h : List (SpkIndex.Op I)) (o : OutPoint) (x : TxOut) (i : I) : Prop :=
  ∃ h1 h2, h = h1 ++ .scanTxout o x :: h2 ∧ FirstIndex h1 x.spk i

/-- ... and that was the last such scan at `o` -/
def LastMatched (h : List (SpkIndex.Op I)) (o : OutPoint) (x : TxOut) (i : I) : Prop :=
  ∃ h1 h2, h = h1 ++ .scanTxout o x :: h2 ∧ FirstIndex h1 x.spk i ∧
    ∀ h3 h4 x', h2 = h3 ++ .scanTxout o x' :: h4 → ∀ j, ¬ FirstIndex (h1 ++ .scanTxout o x :: h3) x'.spk j

/-- no index was given to two scripts -/
def FreshIndices (h : List (SpkIndex.Op I)) : Prop :=
  ∀ i s s', FirstIndex h s i → FirstIndex h s' i → s = s'

/-- some script has index `i` -/
def Inserted (h : List (SpkIndex.Op I)) (i : I) : Prop := ∃ s, FirstIndex h s i

/-- `mark_used(i)` was called when `i` had a script and `unmark_used(i)` was not called since -/
def Marked (h : List (SpkIndex.Op I)) (i : I) : Prop :=
  ∃ h1 h2, h = h1 ++ .markUsed i :: h2 ∧ Inserted h1 i ∧ .unmarkUsed i ∉ h2

/-- the outputs scanned at one outpoint were always the same -/
def HonestScans (h : List (SpkIndex.Op I)) : Prop :=
  ∀ o x x', .scanTxout o x ∈ h → .scanTxout o x' ∈ h → x = x'

end Verif.Spec
