import Verif.Lemmas.SyncElectrum3
import Verif.Lemmas.Sync8
import Verif.Lemmas.Grew
import Verif.Spec.AnyServer

/-!
# What any well-formed update does to a wallet in working order
-/

namespace Verif.Sync
open Verif Spec Props SparseChain ChainGraph
variable {K D P T : Type} [LinearOrder K] [DescriptorOps D] [DecidableEq D] [LinearOrder P] [ChainPosition P]
  [LawfulChainPosition P] [LinearOrder T] [AsTransaction T] [LawfulTx T]

theorem Healthy.fit {t : Tracker K D P T} (h : Healthy t) : Fit t.txoutIndex :=
  ⟨KeychainIndex.reachable_inv (tracker_parts h.reachable).1 h.derivable, h.derivable, h.distinct, h.room⟩

/-- what any accepted update does -/
structure Taken (t : Tracker K D P T) (u : ChainGraph P T) (t' : Tracker K D P T) : Prop where
  graph : ∀ x y, t.chainGraph.graph.getTx x = some y → t'.chainGraph.graph.getTx x = some y
  position : ∀ x p, t'.chainGraph.chain.txPosition x = some p → u.chain.txPosition x = some p ∨
    (u.chain.txPosition x = none ∧ t.chainGraph.chain.txPosition x = some p) ∨
    (u.chain.txPosition x = none ∧ p = unconfirmedPos P ∧ ∃ q k f b, t.chainGraph.chain.txPosition x = some q ∧ ChainPosition.height q = .confirmed k ∧
      f ≤ k ∧ t.chainGraph.chain.checkpointAt f = some b ∧ t'.chainGraph.chain.checkpointAt f ≠ some b)
  blocks : ∀ k b, t'.chainGraph.chain.checkpointAt k = some b → u.chain.checkpointAt k = some b ∨ t.chainGraph.chain.checkpointAt k = some b
  revealed : ∀ k, numRevealed t.txoutIndex k ≤ numRevealed t'.txoutIndex k
  keychains : t'.txoutIndex.keychains = t.txoutIndex.keychains

theorem apply_any {t : Tracker K D P T} (h : Healthy t) (sc : KeychainScan K P T) (hu : ChainGraph.Reachable sc.update)
    (hh : HeightsOk sc.update.chain) (o : Orders P T)
    (hla : ∀ k i, sc.lastActiveIndices.get k = some i → ∃ d, t.txoutIndex.keychains.get k = some d ∧ i ≤ cap d) :
    ∃ t' r, t.applyUpdate sc o = some (t', r) ∧ Healthy t' ∧ (∀ e, r = .error e → t' = t) ∧
      ∀ cs, r = .ok cs → Taken t sc.update t' := by
  have hcg := (tracker_parts h.reachable).2
  have hi := reachable_inv hcg
  have hui := reachable_inv hu
  obtain ⟨h0, h26⟩ := C26_update t.chainGraph sc.update hcg hu o
  have hnp : (t.chainGraph.applyUpdate sc.update o).2 ≠ .panic := by
    intro hp
    cases hplain : (t.chainGraph.chain.applyUpdate sc.update.chain o.chain).2 with
    | error e => rw [h0 e hplain] at hp; cases hp
    | ok cs0 =>
      obtain ⟨-, -, h2⟩ := h26 cs0 hplain
      obtain ⟨e, he, -⟩ := h2 (by rintro ⟨c, hc⟩; rw [hp] at hc; cases hc)
      rw [he] at hp; cases hp
  cases hd : t.chainGraph.determineChangeset sc.update o with
  | panic =>
    exfalso
    apply hnp
    unfold ChainGraph.applyUpdate
    rw [hd]; rfl
  | err e =>
    refine ⟨t, .error e, ?_, h, fun _ _ => rfl, fun cs hcs => by cases hcs⟩
    unfold Tracker.applyUpdate Tracker.determineChangeset
    rw [hd]; rfl
  | ok cs0 =>
    have hok : (t.chainGraph.applyUpdate sc.update o).2 = .ok cs0 := by unfold ChainGraph.applyUpdate; rw [hd]; rfl
    obtain ⟨t', cs, hap⟩ := applyUpdate_ok h.fit sc o hla hok
    have hst := applyUpdate_parts hap
    obtain ⟨hC1, -, -⟩ := update_cps hcg hu o h.heights hst.ok
    obtain ⟨hI1, hI2, hI3, hI4, hI5, hI6, hI7⟩ := stepped_index h.fit hst hui.wf.keys hla
    have hr' : t'.Reachable := Tracker.Reachable.applyUpdate sc o _ h.reachable hu hap
    have hpos : PositionsAgree t.chainGraph.chain := positionsAgree_of_consistent hi.cons
    rw [← hst.chain] at hC1
    cases hplain : (t.chainGraph.chain.applyUpdate sc.update.chain o.chain).2 with
    | error e => rw [h0 e hplain] at hok; cases hok
    | ok cs1 =>
      have happ : t.chainGraph.chain.applyUpdate sc.update.chain o.chain = ((t.chainGraph.chain.applyUpdate sc.update.chain o.chain).1, .ok cs1) :=
        Prod.ext rfl hplain
      obtain ⟨-, h1, -⟩ := h26 cs1 hplain
      obtain ⟨hg, -, hD, hN⟩ := h1 cs0 hok
      rw [← hst.chain] at hg hD hN
      have hP := fun x => C03_positions_after_update _ _ _ _ _ h.heights hpos happ x
      have hposition : ∀ x p, t'.chainGraph.chain.txPosition x = some p → sc.update.chain.txPosition x = some p ∨
          (sc.update.chain.txPosition x = none ∧ t.chainGraph.chain.txPosition x = some p) ∨
          (sc.update.chain.txPosition x = none ∧ p = unconfirmedPos P ∧
            ∃ q k f b, t.chainGraph.chain.txPosition x = some q ∧ ChainPosition.height q = .confirmed k ∧
              f ≤ k ∧ t.chainGraph.chain.checkpointAt f = some b ∧ t'.chainGraph.chain.checkpointAt f ≠ some b) := by
        intro x p hp
        have hp2 : (t.chainGraph.chain.applyUpdate sc.update.chain o.chain).1.txPosition x = some p := by
          by_cases hd : ∃ z, Displaces t.chainGraph.chain (t.chainGraph.chain.applyUpdate sc.update.chain o.chain).1 t.chainGraph.graph
            (t.chainGraph.graph.applyUpdate sc.update.graph o.graph).1 z x
          · rw [hD x hd] at hp; cases hp
          · rw [← hN x hd]; exact hp
        cases hq : sc.update.chain.txPosition x with
        | some q =>
          rw [(hP x).1 q hq] at hp2
          exact .inl hp2
        | none =>
          right
          cases ht : t.chainGraph.chain.txPosition x with
          | none => rw [(hP x).2.1 hq ht] at hp2; cases hp2
          | some q =>
            by_cases hinv : ∃ k, ChainPosition.height q = .confirmed k ∧ Invalidated t.chainGraph.chain sc.update.chain k
            · rw [(hP x).2.2.1 q hq ht hinv] at hp2
              obtain ⟨k, hk, f, hf, hfk⟩ := hinv
              obtain ⟨b, hb⟩ := hf.2.1
              refine .inr ⟨rfl, (Option.some.inj hp2).symm, q, k, f, b, rfl, hk, hfk, hb, fun hb' => ?_⟩
              rcases hC1 f b hb' with h2 | ⟨-, h2, -⟩
              · exact lt_irrefl _ (hf.2.2.1 f ⟨b, hb, h2⟩)
              · exact h2 ⟨f, hf, le_refl _⟩
            · rw [(hP x).2.2.2 q hq ht hinv] at hp2
              exact .inl ⟨rfl, hp2⟩
      refine ⟨t', .ok cs, hap, ⟨hr', hI1.der, hI1.nc, hI1.room, ⟨?_, ?_⟩⟩, fun e he => by (cases he), fun cs2 _ => ⟨?_, hposition, ?_, hI4, hI2⟩⟩
      · rintro k ⟨b, hb⟩
        rcases hC1 k b hb with h2 | ⟨-, -, h2⟩
        · exact hh.1 k ⟨b, h2⟩
        · exact h.heights.1 k ⟨b, h2⟩
      · intro x p k hp hk
        rcases hposition x p hp with h2 | ⟨-, h2⟩ | ⟨-, rfl, -⟩
        · exact hh.2 x p k h2 hk
        · exact h.heights.2 x p k h2 hk
        · rw [unconfirmedPos_height] at hk; cases hk
      · intro x y hy
        rw [hg, TxGraph.applyUpdate_getTx hui.wf.keys, hy]; rfl
      · intro k b hb
        rcases hC1 k b hb with h2 | ⟨-, -, h2⟩
        · exact .inl h2
        · exact .inr h2

theorem Healthy.local {t : Tracker K D P T} (h : Healthy t) {op : Tracker.Op K P T} (hl : Local op) {r}
    (hr : t.step op = some r) : Healthy r.1 := by
  obtain ⟨hf, hcase⟩ := h.fit.local hl hr
  have hreach : r.1.Reachable := tracker_step_reachable h.reachable op (by cases op <;> first | trivial | cases hl) hr
  have hch : (∀ k, r.1.chainGraph.chain.checkpointAt k = t.chainGraph.chain.checkpointAt k) ∧
      ∀ x p k, r.1.chainGraph.chain.txPosition x = some p → ChainPosition.height p = .confirmed k → t.chainGraph.chain.txPosition x = some p := by
    rcases hcase with ⟨tx, pos, o, rfl⟩ | e
    · obtain ⟨a, b, -⟩ := sent_chain h.reachable h.heights hl o hr
      exact ⟨a, b⟩
    · rw [e]; exact ⟨fun _ => rfl, fun _ _ _ h _ => h⟩
  obtain ⟨hc1, hc2⟩ := hch
  refine ⟨hreach, hf.der, hf.nc, hf.room, ⟨fun k hk => h.heights.1 k ?_, fun x p k hp hk => h.heights.2 x p k (hc2 x p k hp hk) hk⟩⟩
  unfold HasCp at hk ⊢
  rw [← hc1]; exact hk

/-- what the owner's calls keep -/
theorem local_keeps {t : Tracker K D P T} (h : Healthy t) {op : Tracker.Op K P T} (hl : Local op) {r} (hr : t.step op = some r) :
    (∀ x y, t.chainGraph.graph.getTx x = some y → r.1.chainGraph.graph.getTx x = some y) ∧
    (∀ k, numRevealed t.txoutIndex k ≤ numRevealed r.1.txoutIndex k) ∧ r.1.txoutIndex.keychains = t.txoutIndex.keychains := by
  obtain ⟨-, hcase⟩ := h.fit.local hl hr
  obtain ⟨-, a, hu⟩ := Cli.step_grew hr
  refine ⟨?_, fun k => ?_, hu.kc⟩
  · rcases hcase with ⟨tx, pos, o, rfl⟩ | e
    · exact (sent_chain h.reachable h.heights hl o hr).2.2
    · rw [e]; exact fun _ _ h => h
  · have := hu.numRevealed k
    omega

end Verif.Sync
