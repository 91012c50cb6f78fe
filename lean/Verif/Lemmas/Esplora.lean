import Verif.Spec.Esplora
import Verif.Lemmas.Electrum2
import Verif.Props.ChainGraph

/-! # Lemmas about the esplora scan with an arbitrary server -/

namespace Verif.Esplora
open Verif Spec Verif.Props
variable {T : Type} [LinearOrder T] [AsTransaction T] [LawfulTx T]

theorem map_iff (st : Status) (tip : Nat) (p : ConfirmationTime) :
    mapConfirmationTime st tip = p ↔ IsPositionOf st tip p := by
  unfold mapConfirmationTime IsPositionOf
  rcases st with ⟨c, _ | h, _ | time⟩ <;> simp only
  · simp [eq_comm]
  · simp [eq_comm]
  · simp [eq_comm]
  · by_cases e : h ≤ tip <;> simp [e, eq_comm]

theorem map_le (st : Status) (tip h : Nat) (e : ChainPosition.height (mapConfirmationTime st tip) = .confirmed h) : h ≤ tip := by
  unfold mapConfirmationTime at e
  rcases st with ⟨c, _ | h', _ | time⟩ <;> simp only [ChainPosition.height] at e
  all_goals try (cases e; done)
  by_cases e' : h' ≤ tip
  · rw [if_pos e'] at e; cases e; exact e'
  · rw [if_neg e'] at e; cases e

/-- invariant of an update with tip `tip` and checkpoints `cps` -/
structure CUpd (u : Update T) (cps : Nat → Option BlockId) (tip : Nat) : Prop where
  reach : ChainGraph.Reachable u
  upd : Electrum.Upd u.chain cps tip

/-- the transaction is refused: it is in the chain at another position and settled there, or conflicts with a confirmed one -/
def Refused (u : Update T) (t : T) (p : ConfirmationTime) : Prop :=
  ConfirmedElsewhere u.chain (asTx t).txid p ∨
  (¬ InChain u.chain (asTx t).txid ∧ ∃ c, ChainConflict u.chain u.graph (asTx t) c)

theorem insertTx_checkpoints (u : Update T) (hu : ChainGraph.Reachable u)
    (hl : u.chain.checkpointLimit = none) (t : T) (p : ConfirmationTime)
    (o : Orders ConfirmationTime T) (k : Nat) :
    (u.insertTx t p o).1.chain.checkpointAt k = u.chain.checkpointAt k ∨
    (u.insertTx t p o).1.chain.checkpointAt k = (u.chain.insertTx (asTx t).txid p o.chain).1.checkpointAt k := by
  have hi := ChainGraph.reachable_inv hu
  unfold ChainGraph.insertTx ChainGraph.insertTxPreview SparseChain.insertTx
  cases hcs : u.chain.insertTxPreview (asTx t).txid p o.chain with
  | panic => exact .inl rfl
  | err e => exact .inl rfl
  | ok cs =>
    simp only
    obtain ⟨h1, h2⟩ := ChainGraph.insertTx_conditions hi hcs
    obtain ⟨-, h3, -⟩ := ChainGraph.fix_spec hi ⟨cs, u.graph.insertTxPreview t⟩ o.spend h1 (fun k a b => (h2 k a b).2)
    cases hf : u.fixConflicts ⟨cs, u.graph.insertTxPreview t⟩ o.spend with
    | panic => exact .inl rfl
    | err e => exact .inl rfl
    | ok r =>
      refine .inr ?_
      obtain ⟨-, -, h4, -⟩ := h3 r hf
      show (u.chain.applyChangeset r.chain).checkpointAt k = (u.chain.applyChangeset cs).checkpointAt k
      simp only at h4
      unfold SparseChain.checkpointAt
      rw [SparseChain.applyChangeset_cp _ _ hl, SparseChain.applyChangeset_cp _ _ hl, h4]

theorem insertTx_limit (u : Update T) (t : T) (p : ConfirmationTime) (o : Orders ConfirmationTime T) :
    (u.insertTx t p o).1.chain.checkpointLimit = u.chain.checkpointLimit := by
  unfold ChainGraph.insertTx ChainGraph.applyOk
  cases u.insertTxPreview t p o with
  | ok cs => exact SparseChain.applyChangeset_limit _ _
  | err e => rfl
  | panic => rfl

/-- what a new transaction displaces -/
def Displaced (u : Update T) (t : T) (c : Txid) : Prop :=
  ¬ InChain u.chain (asTx t).txid ∧ ChainConflict u.chain u.graph (asTx t) c

theorem displaced_ne {u : Update T} {t : T} {c : Txid} (h : Displaced u t c) : c ≠ (asTx t).txid := by
  rintro rfl
  exact h.1 h.2.1

/-- inserting a transaction not above the tip: it works, or it is refused and nothing changes -/
theorem putTx_cases {u : Update T} {cps : Nat → Option BlockId} {tip : Nat} (hu : CUpd u cps tip)
    (o : Orders ConfirmationTime T) (t : T) (p : ConfirmationTime)
    (hp : ∀ h, ChainPosition.height p = .confirmed h → h ≤ tip) :
    ∃ u', putTx o u t p = .ok u' ∧ CUpd u' cps tip ∧
      ((u' = u ∧ Refused u t p) ∨
        (u'.graph = (u.graph.insertTx t).1 ∧ u'.chain.txPosition (asTx t).txid = some p ∧
          (∀ y, Displaced u t y → u'.chain.txPosition y = none) ∧
          ∀ y, y ≠ (asTx t).txid → ¬ Displaced u t y → u'.chain.txPosition y = u.chain.txPosition y)) := by
  obtain ⟨h1, h2⟩ := C26_insert_tx u hu.reach t p o
  have hlim := hu.upd.lim
  have hr : ChainGraph.Reachable (u.insertTx t p o).1 := .insertTx t p o hu.reach
  rcases Electrum.insertTx_cases hu.upd (asTx t).txid p o.chain hp with ⟨hupd, ⟨cs, hcs, hpos⟩ | ⟨a, b, c, he, hsame, hce⟩⟩
  · obtain ⟨h3, h4, h5⟩ := h2 cs hcs
    by_cases hok : ∃ cs', (u.insertTx t p o).2 = .ok cs'
    · obtain ⟨cs', hcs'⟩ := hok
      obtain ⟨g1, -, g2, g3⟩ := h4 cs' hcs'
      refine ⟨(u.insertTx t p o).1, ?_, ⟨hr, ?_⟩, .inr ⟨g1, ?_, g2, ?_⟩⟩
      · unfold putTx
        rcases hi : u.insertTx t p o with ⟨u', r⟩
        rw [hi] at hcs'
        simp only at hcs'
        subst hcs'
        rfl
      · have hcp : ∀ k, (u.insertTx t p o).1.chain.checkpointAt k = cps k := by
          intro k
          rcases insertTx_checkpoints u hu.reach hlim t p o k with h | h
          · rw [h]; exact hu.upd.cp k
          · rw [h]; exact hupd.cp k
        have hhas : ∀ k, HasCp (u.insertTx t p o).1.chain k ↔ HasCp u.chain k := by
          intro k; unfold HasCp; rw [hcp, hu.upd.cp]
        have hb : ∀ x q h, (u.insertTx t p o).1.chain.txPosition x = some q → ChainPosition.height q = .confirmed h → h ≤ tip := by
          intro x q h hx hq
          by_cases hX : Displaced u t x
          · rw [g2 x hX] at hx; cases hx
          · rw [g3 x hX] at hx
            exact hupd.below x q h hx hq
        refine ⟨⟨fun h hh => hu.upd.heights.1 h ((hhas h).1 hh), fun x q h hx hq => ?_⟩,
          SparseChain.positionsAgree_of_consistent (ChainGraph.reachable_inv hr).cons, by rw [insertTx_limit]; exact hlim, hcp,
          ⟨(hhas _).2 hu.upd.isTip.1, fun h' hh => hu.upd.isTip.2 h' ((hhas _).1 hh)⟩, hb⟩
        exact lt_of_le_of_lt (hb x q h hx hq) hu.upd.tip_small
      · rw [g3 _ (fun hX => displaced_ne hX rfl), hpos, if_pos rfl]
      · intro y hy hX
        rw [g3 _ hX, hpos, if_neg hy]
    · obtain ⟨e, g1, -, g2, -⟩ := h5 hok
      refine ⟨u, ?_, hu, .inl ⟨rfl, .inr ⟨g2.1, _, g2.2⟩⟩⟩
      unfold putTx
      rw [g1]
  · refine ⟨u, ?_, hu, .inl ⟨rfl, .inl hce⟩⟩
    unfold putTx
    rw [h1 _ he]

end Verif.Esplora
