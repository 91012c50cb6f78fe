import Verif.Model.SpkIndex

/-!
# The unit tests of the repository, run on the model: bdk_chain/tests/test_spk_txout_index.rs

These are not proofs of properties, but a check that the model behaves as the authors of the code say that the code does: each
example is one of their tests, transcribed.
-/

namespace Verif.Tests.SpkIndex
open Verif

def tx1 : Tx := ⟨5, [], [⟨42000, 1⟩], by decide⟩
def tx2 : Tx := ⟨6, [⟨5, 0⟩], [⟨20000, 2⟩, ⟨30000, 1⟩], by decide⟩

/-- `spk_txout_sent_and_received` -/
example :
    (let x : SpkIndex Nat := ((SpkIndex.empty.insertSpk 0 1).1.insertSpk 1 2).1
    let y := (x.scan tx1.txouts).1
    x.sentAndReceived tx1 = (0, 42000) ∧ x.netValue tx1 = 42000 ∧ y.sentAndReceived tx1 = (0, 42000) ∧
    y.sentAndReceived tx2 = (42000, 50000) ∧ y.netValue tx2 = 8000) := by decide +kernel

/-- `mark_used` -/
example :
    (let x0 : SpkIndex Nat := ((SpkIndex.empty.insertSpk 1 1).1.insertSpk 2 2).1
    let x1 := (x0.markUsed 1).1
    let x2 := (x1.unmarkUsed 1).1
    let x3 := (x2.markUsed 1).1
    let x4 := ((x3.scan tx1.txouts).1.unmarkUsed 1).1
    [x0, x1, x2, x3, x4].map (fun x => x.isUsed 1) = [false, true, false, true, true]) := by decide +kernel

/-- `unmark_used_does_not_result_in_invalid_representation` -/
example :
    (let x : SpkIndex Nat := SpkIndex.empty
    let a := x.unmarkUsed 0
    let b := a.1.unmarkUsed 1
    let c := b.1.unmarkUsed 2
    a.2 = false ∧ b.2 = false ∧ c.2 = false ∧ c.1.unusedSpks .unbounded .unbounded = some []) := by decide +kernel

end Verif.Tests.SpkIndex
