import Verif.Model.TxGraph

/-!
# A concrete family of transactions for the non-vacuity examples and the counterexamples

`DemoTx` has a number and a witness version; the txid depends on the number only.
-/

namespace Verif.Props
open Verif

/-- eight transactions in two witness versions each -/
structure DemoTx where
  num : Fin 8
  wit : Fin 2
deriving DecidableEq, Repr

instance : LinearOrder DemoTx :=
  LinearOrder.lift' (fun t => (toLex (t.num, t.wit) : Fin 8 ×ₗ Fin 2))
    (fun a b h => by
      have h' : (a.num, a.wit) = (b.num, b.wit) := h
      cases a; cases b; simp_all)

/-- txid of demo transaction `n` -/
def dId (n : Fin 8) : Txid := Fin.ofNat _ (n.val + 1)
/-- a txid outside the family -/
def dExt : Txid := 77
/-- the previous output of a coinbase input -/
def nullOut : OutPoint := ⟨0, Fin.last _⟩

/-- 0: coinbase; 1 and 2 both spend (0,0); 3 spends (1,1); 4 spends (1,0) and (3,0); 5 spends an external output;
6 spends (2,0); 7 spends (3,0) and the same external output as 5 -/
def demoTx (n : Fin 8) : Tx :=
  match n with
  | 0 => ⟨dId 0, [nullOut], [⟨50, 1⟩], by decide⟩
  | 1 => ⟨dId 1, [⟨dId 0, 0⟩], [⟨30, 2⟩, ⟨19, 3⟩], by decide⟩
  | 2 => ⟨dId 2, [⟨dId 0, 0⟩], [⟨45, 4⟩], by decide⟩
  | 3 => ⟨dId 3, [⟨dId 1, 1⟩], [⟨18, 5⟩], by decide⟩
  | 4 => ⟨dId 4, [⟨dId 1, 0⟩, ⟨dId 3, 0⟩], [⟨40, 1⟩], by decide⟩
  | 5 => ⟨dId 5, [⟨dExt, 0⟩], [⟨7, 2⟩], by decide⟩
  | 6 => ⟨dId 6, [⟨dId 2, 0⟩], [⟨44, 9⟩], by decide⟩
  | 7 => ⟨dId 7, [⟨dId 3, 0⟩, ⟨dExt, 0⟩], [⟨20, 9⟩], by decide⟩

instance : AsTransaction DemoTx := ⟨fun t => demoTx t.num⟩

theorem demoTx_txid (n : Fin 8) : (demoTx n).txid = dId n := by
  revert n; decide

theorem dId_inj : ∀ a b : Fin 8, dId a = dId b → a = b := by decide

instance : LawfulTx DemoTx := ⟨fun a b h => by
  have h' : (demoTx a.num).txid = (demoTx b.num).txid := h
  rw [demoTx_txid, demoTx_txid] at h'
  show demoTx a.num = demoTx b.num
  rw [dId_inj _ _ h']⟩

/-- demo transaction `n`, witness version 0 -/
def d (n : Fin 8) : DemoTx := ⟨n, 0⟩

end Verif.Props
