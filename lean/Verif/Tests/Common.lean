import Verif.Model.ChainGraph

/-!
# Transactions for the transcribed unit tests

A test has a finite table of transactions; `TT tbl` is the type of its transactions.  The txids are small numbers, different
for different transactions (the tests only use that the real txids differ).
-/

namespace Verif.Tests
open Verif

deriving instance DecidableEq for Except

/-- the transactions of a test -/
structure TT {n : Nat} (tbl : Fin n → Tx) where
  i : Fin n
deriving DecidableEq

instance {n : Nat} {tbl : Fin n → Tx} : LinearOrder (TT tbl) :=
  LinearOrder.lift' TT.i (fun a b h => by cases a; cases b; simp_all)

instance {n : Nat} {tbl : Fin n → Tx} : AsTransaction (TT tbl) := ⟨fun t => tbl t.i⟩

/-- the previous output of a coinbase input, `OutPoint::null()` -/
def nullOut : OutPoint := ⟨0, Fin.last _⟩
/-- `TxOut::default()` -/
def dflt : TxOut := ⟨2 ^ 64 - 1, 0⟩

/-- hash containers in key order -/
def ho {α : Type} : HashOrder α := HashOrder.id α
def so : SpendOrder := fun _ => HashOrder.id _

end Verif.Tests
