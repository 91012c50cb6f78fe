import Verif.Spec.SyncElectrum

/-!
# Specification vocabulary: wallets that live with any server
-/

namespace Verif.Sync
open Verif Spec
variable {K D P T : Type} [LinearOrder K] [DescriptorOps D] [LinearOrder P] [ChainPosition P] [LinearOrder T] [AsTransaction T]

/-- a wallet in working order, whatever it believes about the world -/
structure Healthy [DecidableEq D] (t : Tracker K D P T) : Prop where
  reachable : t.Reachable
  derivable : AllDerivable t.txoutIndex
  distinct : NoCollision t.txoutIndex
  room : Room t.txoutIndex
  heights : HeightsOk t.chainGraph.chain

/-- the server reported this position, relative to a tip it named -/
def Reported (s : Esplora.Server T) (x : Txid) (p : ConfirmationTime) : Prop :=
  ∃ tip τ0 τ tx st, s.height τ0 = some tip ∧ Esplora.Gives s τ tx st ∧ (asTx tx).txid = x ∧ Esplora.IsPositionOf st tip p

/-- the server listed the transaction in a history, at a height that reads as this position, relative to a block it
confirmed -/
def EReported (s : Electrum.Server) (x : Txid) (p : TxHeight) : Prop :=
  ∃ (b : BlockId) (τ0 τ : Nat) (spk : Script) (l : List (Txid × Int)) (raw : Int), s.header τ0 b.height = some b.hash ∧ s.history τ spk = some l ∧ (x, raw) ∈ l ∧ Electrum.IsHeightOf raw b.height x p

/-- the life of a wallet of the esplora example with any servers: honest, lying, or changing at any moment, but for the height `u32::MAX` -/
inductive AnyLife [DecidableEq D] (t0 : Tracker K D ConfirmationTime T) : Tracker K D ConfirmationTime T → Prop where
  | new : AnyLife t0 t0
  | owner {t} (op : Tracker.Op K ConfirmationTime T) (r) : AnyLife t0 t → Local op → t.step op = some r → AnyLife t0 r.1
  | scan {t} (s : Esplora.Server T) (o o' : Orders ConfirmationTime T) (gap par fuel n time : Nat) (t' r) : AnyLife t0 t →
      (∀ τ h, s.height τ = some h → h < u32Max) → esploraScan s o o' t gap par fuel n time = .ok (t', r) → AnyLife t0 t'
  | sync {t} (s : Esplora.Server T) (o o' : Orders ConfirmationTime T) (so : SpendOrder) (f : Flags) (par fuel n time : Nat) (t' r) :
      AnyLife t0 t → (∀ τ h, s.height τ = some h → h < u32Max) →
      esploraSync s o o' so t f par fuel n time = .ok (t', r) → AnyLife t0 t'

/-- the life of a wallet of the electrum example with any servers: honest, lying, or changing at any moment, but for the height
`u32::MAX` and transactions without outputs -/
inductive AnyELife [DecidableEq D] (t0 : Tracker K D TxHeight T) : Tracker K D TxHeight T → Prop where
  | new : AnyELife t0 t0
  | owner {t} (op : Tracker.Op K TxHeight T) (r) : AnyELife t0 t → Local op → t.step op = some r → AnyELife t0 r.1
  | scan {t} (s : Electrum.Server) (get : Txid → Option T) (ho : Electrum.Order) (so : SpendOrder) (o : Orders TxHeight T)
      (gap bs n time : Nat) (t' r) : AnyELife t0 t → (∀ τ b, s.tip τ = some b → b.height < u32Max) →
      (∀ τ x tx, s.tx τ x = .ok tx → tx.output ≠ []) →
      electrumScan s get ho so o t gap bs n time = .ok (t', r) → AnyELife t0 t'
  | sync {t} (s : Electrum.Server) (get : Txid → Option T) (ho : Electrum.Order) (so so' : SpendOrder) (o : Orders TxHeight T) (f : Flags)
      (bs n time : Nat) (t' r) : AnyELife t0 t → (∀ τ b, s.tip τ = some b → b.height < u32Max) →
      (∀ τ x tx, s.tx τ x = .ok tx → tx.output ≠ []) →
      electrumSync s get ho so so' o t f bs n time = .ok (t', r) → AnyELife t0 t'

end Verif.Sync
