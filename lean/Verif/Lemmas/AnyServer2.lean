import Verif.Lemmas.AnyServer
import Verif.Props.Esplora
import Verif.Props.Electrum
import Verif.Props.ElectrumUpdate

/-!
# The commands with any server
-/

namespace Verif.Sync
open Verif Spec Props SparseChain ChainGraph
variable {K D T : Type} [LinearOrder K] [DescriptorOps D] [DecidableEq D] [LinearOrder T] [AsTransaction T] [LawfulTx T]

omit [DecidableEq D] [LawfulTx T] in
theorem checkpoints_small {P : Type} [LinearOrder P] [ChainPosition P] {t : Tracker K D P T} (h : HeightsOk t.chainGraph.chain) :
    ∀ k x, t.chainGraph.chain.checkpoints.get k = some x → k < u32Max := by
  intro k x hx
  refine h.1 k ⟨⟨k, x⟩, ?_⟩
  unfold SparseChain.checkpointAt
  rw [hx]; rfl

theorem index_le_cap {s : KeychainIndex K D} (hd : AllDerivable s) {k : K} {l : List (Nat × Script)}
    (h : (spksOfAllKeychains s).get k = some l) {i : Nat} {spk : Script} (hm : (i, spk) ∈ l) :
    ∃ d, s.keychains.get k = some d ∧ i ≤ cap d := by
  obtain ⟨d, h1, -, h2⟩ := spksOfAll_get hd h
  obtain ⟨n, hn⟩ := List.mem_iff_getElem?.1 hm
  obtain ⟨rfl, h3, -⟩ := (h2 n i spk).1 hn
  exact ⟨d, h1, h3⟩

/-- a command with an update that is in order -/
theorem finish_any {P : Type} [LinearOrder P] [ChainPosition P] [LawfulChainPosition P] {t : Tracker K D P T} (h : Healthy t) (o : Orders P T)
    (r : Esplora.Out (KeychainScan K P T)) (hp : r ≠ .panic)
    (hr : ∀ sc, r = .ok sc → ChainGraph.Reachable sc.update ∧ HeightsOk sc.update.chain ∧
      ∀ k i, sc.lastActiveIndices.get k = some i → ∃ d, t.txoutIndex.keychains.get k = some d ∧ i ≤ cap d) :
    finish t o r ≠ .panic ∧ ∀ t' x, finish t o r = .ok (t', x) → Healthy t' ∧ (∀ e, x = .error e → t' = t) ∧
      ∀ cs, x = .ok cs → ∃ sc, r = .ok sc ∧ Taken t sc.update t' := by
  unfold finish
  rcases r with sc | _ | _ | _
  · obtain ⟨h1, h2, h3⟩ := hr sc rfl
    obtain ⟨t1, x1, h4, h5, h6, h7⟩ := apply_any h sc h1 h2 o h3
    simp only [h4]
    refine ⟨by simp, ?_⟩
    intro t' x hx
    cases hx
    exact ⟨h5, h6, fun cs hcs => ⟨sc, rfl, h7 cs hcs⟩⟩
  · exact ⟨by simp, fun t' x hx => by cases hx⟩
  · exact absurd rfl hp
  · exact ⟨by simp, fun t' x hx => by cases hx⟩

theorem efinish_any {t : Tracker K D TxHeight T} (h : Healthy t) (o : Orders TxHeight T) (so : SpendOrder) (get : Txid → Option T)
    (r : Electrum.Out (Electrum.ElectrumUpdate K TxHeight)) (hp : r ≠ .panic)
    (hr : ∀ e, r = .ok e → SparseChain.Reachable e.chainUpdate ∧ HeightsOk e.chainUpdate ∧
      ∀ k i, e.lastActive.get k = some i → ∃ d, t.txoutIndex.keychains.get k = some d ∧ i ≤ cap d) :
    electrumFinish t o so get r ≠ .panic ∧ ∀ t' x, electrumFinish t o so get r = .ok (t', x) → Healthy t' ∧ (∀ e, x = .error e → t' = t) ∧
      ∀ cs, x = .ok cs → ∃ e u, r = .ok e ∧ u.chain = e.chainUpdate ∧ Taken t u t' := by
  unfold electrumFinish
  rcases r with e | _ | _ | _ | _
  · obtain ⟨h1, h2, h3⟩ := hr e rfl
    simp only
    cases hf : e.fetch t.chainGraph get with
    | none => exact ⟨by simp, fun t' x hx => by cases hx⟩
    | some txs =>
      simp only
      cases hi : e.intoKeychainScan txs t.chainGraph so with
      | error _ => exact ⟨by simp, fun t' x hx => by cases hx⟩
      | ok sc =>
        obtain ⟨h8, h9, h10⟩ := (Electrum.C61_into_keychain_scan e h1 t.chainGraph (tracker_parts h.reachable).2 txs so).1 sc hi
        obtain ⟨t1, x1, h4, h5, h6, h7⟩ := apply_any h sc h10 (by rw [h8]; exact h2) o (by rw [h9]; exact h3)
        simp only [h4]
        refine ⟨by simp, ?_⟩
        intro t' x hx
        cases hx
        exact ⟨h5, h6, fun cs hcs => ⟨e, sc.update, rfl, h8, h7 cs hcs⟩⟩
  · exact ⟨by simp, fun t' x hx => by cases hx⟩
  · exact ⟨by simp, fun t' x hx => by cases hx⟩
  · exact absurd rfl hp
  · exact ⟨by simp, fun t' x hx => by cases hx⟩

theorem scan_any {t : Tracker K D ConfirmationTime T} (h : Healthy t) (s : Esplora.Server T) (o o' : Orders ConfirmationTime T)
    (gap par fuel n time : Nat) (hsm : ∀ τ h, s.height τ = some h → h < u32Max) :
    esploraScan s o o' t gap par fuel n time ≠ .panic ∧
    ∀ t' x, esploraScan s o o' t gap par fuel n time = .ok (t', x) → Healthy t' ∧ (∀ e, x = .error e → t' = t) ∧
      ∀ cs, x = .ok cs → ∃ u, Taken t u t' ∧ (∀ y p, u.chain.txPosition y = some p → Reported s y p) ∧
        ∃ tip τ, u.chain.latestCheckpoint = some tip ∧ s.blockHash τ tip.height = some tip.hash := by
  have hm := checkpoints_small h.heights
  obtain ⟨h1, h2⟩ := Esplora.C62_positions_reported s o t.chainGraph.chain.checkpoints par fuel n K (spksOfAllKeychains t.txoutIndex) [] []
    gap time hsm hm
  obtain ⟨-, h3⟩ := Esplora.scan_spec s o t.chainGraph.chain.checkpoints par fuel hsm hm n K (spksOfAllKeychains t.txoutIndex) [] [] gap time
  obtain ⟨h4, h5⟩ := finish_any h o' (Esplora.scan s o t.chainGraph.chain.checkpoints par fuel n K (spksOfAllKeychains t.txoutIndex) [] [] gap time)
    h1 (by
      intro sc hsc
      obtain ⟨g1, -, -, g2, -⟩ := h2 sc hsc
      refine ⟨g1, g2, fun k i hk => ?_⟩
      obtain ⟨_, _, _, _, -, lo, hi, -, -, ha⟩ := h3 sc hsc
      obtain ⟨l, spk, g3, g4, -⟩ := ha k i hk
      exact index_le_cap h.derivable g3 g4)
  refine ⟨h4, fun t' x hx => ?_⟩
  obtain ⟨g1, g2, g3⟩ := h5 t' x hx
  refine ⟨g1, g2, fun cs hcs => ?_⟩
  obtain ⟨sc, g4, g5⟩ := g3 cs hcs
  refine ⟨sc.update, g5, ?_⟩
  obtain ⟨-, -, -, -, -, -, T2, t2, start, tip, -, -, g6, -, -, g8, g9, -, g7⟩ := h2 sc g4
  refine ⟨fun y p hy => ?_, tip, t2, g8, g9⟩
  obtain ⟨τ, tx, st, -, -, a, b, c⟩ := g7 y p hy
  exact ⟨start.height, T2, τ, tx, st, g6, a, b, c⟩

theorem sync_any {t : Tracker K D ConfirmationTime T} (h : Healthy t) (s : Esplora.Server T) (o o' : Orders ConfirmationTime T) (so : SpendOrder)
    (f : Flags) (par fuel n time : Nat) (hsm : ∀ τ h, s.height τ = some h → h < u32Max) :
    esploraSync s o o' so t f par fuel n time ≠ .panic ∧
    ∀ t' x, esploraSync s o o' so t f par fuel n time = .ok (t', x) → Healthy t' ∧ (∀ e, x = .error e → t' = t) ∧
      ∀ cs, x = .ok cs → ∃ u, Taken t u t' ∧ (∀ y p, u.chain.txPosition y = some p → Reported s y p) ∧
        ∃ tip τ, u.chain.latestCheckpoint = some tip ∧ s.blockHash τ tip.height = some tip.hash := by
  have hm := checkpoints_small h.heights
  obtain ⟨spks, hs1, -⟩ := syncSpks_spec h.reachable h.derivable f.resolve
  obtain ⟨txids, ht1, -⟩ := syncTxids_spec h.reachable f.resolve
  unfold esploraSync
  rw [hs1, ht1]
  simp only
  obtain ⟨h1, h2⟩ := Esplora.C62_positions_reported s o t.chainGraph.chain.checkpoints par fuel n Unit
    (OMap.ofList [((), spks.zipIdx.map (fun e => (e.2, e.1)))]) txids (syncOutpoints t so f.resolve) u64Max time hsm hm
  have hsc : ∀ sc, mapOut (scanOfGraph (K := K)) (Esplora.scanWithoutKeychain s o t.chainGraph.chain.checkpoints spks txids
      (syncOutpoints t so f.resolve) par fuel n time) = .ok sc → ∃ r, Esplora.scan s o t.chainGraph.chain.checkpoints par fuel n Unit
    (OMap.ofList [((), spks.zipIdx.map (fun e => (e.2, e.1)))]) txids (syncOutpoints t so f.resolve) u64Max time = .ok r ∧
      sc = scanOfGraph r.update := by
    intro sc hsc
    unfold Esplora.scanWithoutKeychain at hsc
    rcases hq : Esplora.scan s o t.chainGraph.chain.checkpoints par fuel n Unit
      (OMap.ofList [((), spks.zipIdx.map (fun e => (e.2, e.1)))]) txids (syncOutpoints t so f.resolve) u64Max time with r | _ | _ | _ <;>
      rw [hq] at hsc <;> cases hsc
    exact ⟨r, hq, rfl⟩
  obtain ⟨h4, h5⟩ := finish_any h o' (mapOut (scanOfGraph (K := K)) (Esplora.scanWithoutKeychain s o t.chainGraph.chain.checkpoints spks txids
      (syncOutpoints t so f.resolve) par fuel n time)) (by
      unfold Esplora.scanWithoutKeychain
      rcases hq : Esplora.scan s o t.chainGraph.chain.checkpoints par fuel n Unit
        (OMap.ofList [((), spks.zipIdx.map (fun e => (e.2, e.1)))]) txids (syncOutpoints t so f.resolve) u64Max time with r | _ | _ | _
      · rw [hq]; simp [mapOut]
      · rw [hq]; simp [mapOut]
      · exact absurd hq h1
      · rw [hq]; simp [mapOut]) (by
      intro sc hsc'
      obtain ⟨r, g0, rfl⟩ := hsc sc hsc'
      obtain ⟨g1, -, -, g2, -⟩ := h2 r g0
      exact ⟨g1, g2, fun k i hk => by cases hk⟩)
  refine ⟨h4, fun t' x hx => ?_⟩
  obtain ⟨g1, g2, g3⟩ := h5 t' x hx
  refine ⟨g1, g2, fun cs hcs => ?_⟩
  obtain ⟨sc, g4, g5⟩ := g3 cs hcs
  refine ⟨sc.update, g5, ?_⟩
  obtain ⟨r, g0, rfl⟩ := hsc sc g4
  obtain ⟨-, -, -, -, -, -, T2, t2, start, tip, -, -, g6, -, -, g8, g9, -, g7⟩ := h2 r g0
  refine ⟨fun y p hy => ?_, tip, t2, g8, g9⟩
  obtain ⟨τ, tx, st, -, -, a, b, c⟩ := g7 y p hy
  exact ⟨start.height, T2, τ, tx, st, g6, a, b, c⟩

theorem echain_any {K : Type} [LinearOrder K] (s : Electrum.Server) (ho : Electrum.Order) (m : OMap Nat BlockHash)
    (hsm : ∀ τ b, s.tip τ = some b → b.height < u32Max) (hout : ∀ τ x tx, s.tx τ x = .ok tx → tx.output ≠ [])
    (hm : ∀ h x, m.get h = some x → h < u32Max) (ks : OMap K (List (Nat × Script))) (txids : List Txid)
    (ops : List OutPoint) (gap bs n time : Nat) :
    Electrum.scan s ho m ks txids ops gap bs n time ≠ .panic ∧
    ∀ r, Electrum.scan s ho m ks txids ops gap bs n time = .ok r → SparseChain.Reachable r.chainUpdate ∧ HeightsOk r.chainUpdate ∧
      (∀ y p, r.chainUpdate.txPosition y = some p → EReported s y p) ∧
        ∃ tip τ, r.chainUpdate.latestCheckpoint = some tip ∧ s.header τ tip.height = some tip.hash := by
  obtain ⟨h1, h2⟩ := Electrum.C51_positions_reported s ho m ks txids ops gap bs n time hsm hm hout
  refine ⟨h1, fun r hr => ?_⟩
  obtain ⟨-, -, -, T, t2, start, tip, -, -, -, -, g1, g2, g3⟩ := h2 r hr
  obtain ⟨tip', T', t2', hf⟩ := (Electrum.scan_spec s ho m hsm hout hm ks txids ops gap bs n time).2 r hr
  refine ⟨Electrum.reachable_of_agree hf.upd.pos hf.upd.lim, hf.upd.heights, fun y p hy => ?_, tip, t2, g1, g2⟩
  obtain ⟨τ, k, l, raw, -, -, a, b, c⟩ := g3 y p hy
  exact ⟨tip, t2, τ, k, l, raw, g2, a, b, c⟩

theorem escan_any {t : Tracker K D TxHeight T} (h : Healthy t) (s : Electrum.Server) (get : Txid → Option T) (ho : Electrum.Order)
    (so : SpendOrder) (o : Orders TxHeight T) (gap bs n time : Nat) (hsm : ∀ τ b, s.tip τ = some b → b.height < u32Max)
    (hout : ∀ τ x tx, s.tx τ x = .ok tx → tx.output ≠ []) :
    electrumScan s get ho so o t gap bs n time ≠ .panic ∧
    ∀ t' x, electrumScan s get ho so o t gap bs n time = .ok (t', x) → Healthy t' ∧ (∀ e, x = .error e → t' = t) ∧
      ∀ cs, x = .ok cs → ∃ u, Taken t u t' ∧ (∀ y p, u.chain.txPosition y = some p → EReported s y p) ∧
        ∃ tip τ, u.chain.latestCheckpoint = some tip ∧ s.header τ tip.height = some tip.hash := by
  have hm := checkpoints_small h.heights
  obtain ⟨h1, h2⟩ := echain_any s ho t.chainGraph.chain.checkpoints hsm hout hm (spksOfAllKeychains t.txoutIndex) [] [] gap bs n time
  obtain ⟨h4, h5⟩ := efinish_any h o so get _ h1 (by
      intro sc hsc
      obtain ⟨g1, g2, -⟩ := h2 sc hsc
      refine ⟨g1, g2, fun k i hk => ?_⟩
      obtain ⟨l, spk, _, _, g3, g4, -⟩ := Electrum.C50_last_active_real s ho _ _ _ _ _ _ _ _ hsm hm hout sc hsc k i hk
      exact index_le_cap h.derivable g3 g4)
  refine ⟨h4, fun t' x hx => ?_⟩
  obtain ⟨g1, g2, g3⟩ := h5 t' x hx
  refine ⟨g1, g2, fun cs hcs => ?_⟩
  obtain ⟨e, u, g4, g5, g6⟩ := g3 cs hcs
  obtain ⟨-, -, g7, g8⟩ := h2 e g4
  exact ⟨u, g6, by rw [g5]; exact g7, by rw [g5]; exact g8⟩

theorem esync_any {t : Tracker K D TxHeight T} (h : Healthy t) (s : Electrum.Server) (get : Txid → Option T) (ho : Electrum.Order)
    (so so' : SpendOrder) (o : Orders TxHeight T) (f : Flags) (bs n time : Nat) (hsm : ∀ τ b, s.tip τ = some b → b.height < u32Max)
    (hout : ∀ τ x tx, s.tx τ x = .ok tx → tx.output ≠ []) :
    electrumSync s get ho so so' o t f bs n time ≠ .panic ∧
    ∀ t' x, electrumSync s get ho so so' o t f bs n time = .ok (t', x) → Healthy t' ∧ (∀ e, x = .error e → t' = t) ∧
      ∀ cs, x = .ok cs → ∃ u, Taken t u t' ∧ (∀ y p, u.chain.txPosition y = some p → EReported s y p) ∧
        ∃ tip τ, u.chain.latestCheckpoint = some tip ∧ s.header τ tip.height = some tip.hash := by
  have hm := checkpoints_small h.heights
  obtain ⟨spks, hs1, -⟩ := syncSpks_spec h.reachable h.derivable f.resolve
  obtain ⟨txids, ht1, -⟩ := syncTxids_spec h.reachable f.resolve
  unfold electrumSync
  rw [hs1, ht1]
  simp only
  obtain ⟨h1, h2⟩ := echain_any s ho t.chainGraph.chain.checkpoints hsm hout hm (OMap.ofList [((), spks.zipIdx.map (fun e => (e.2, e.1)))])
    txids (syncOutpoints t so f.resolve) u64Max bs n time
  have hsc : ∀ e, updateOfChain (K := K) (Electrum.scanWithoutKeychain s ho t.chainGraph.chain.checkpoints spks txids
      (syncOutpoints t so f.resolve) bs n time) = .ok e → ∃ r, Electrum.scan s ho t.chainGraph.chain.checkpoints
    (OMap.ofList [((), spks.zipIdx.map (fun e => (e.2, e.1)))]) txids (syncOutpoints t so f.resolve) u64Max bs n time = .ok r ∧
      e = ⟨r.chainUpdate, OMap.empty⟩ := by
    intro sc hsc
    unfold Electrum.scanWithoutKeychain at hsc
    rcases hq : Electrum.scan s ho t.chainGraph.chain.checkpoints
      (OMap.ofList [((), spks.zipIdx.map (fun e => (e.2, e.1)))]) txids (syncOutpoints t so f.resolve) u64Max bs n time with r | _ | _ | _ | _ <;>
      rw [hq] at hsc <;> cases hsc
    exact ⟨r, hq, rfl⟩
  obtain ⟨h4, h5⟩ := efinish_any h o so' get (updateOfChain (K := K) (Electrum.scanWithoutKeychain s ho t.chainGraph.chain.checkpoints spks txids
      (syncOutpoints t so f.resolve) bs n time)) (by
      unfold Electrum.scanWithoutKeychain
      rcases hq : Electrum.scan s ho t.chainGraph.chain.checkpoints
        (OMap.ofList [((), spks.zipIdx.map (fun e => (e.2, e.1)))]) txids (syncOutpoints t so f.resolve) u64Max bs n time with r | _ | _ | _ | _
      · rw [hq]; simp [updateOfChain]
      · rw [hq]; simp [updateOfChain]
      · rw [hq]; simp [updateOfChain]
      · exact absurd hq h1
      · rw [hq]; simp [updateOfChain]) (by
      intro sc hsc'
      obtain ⟨r, g0, rfl⟩ := hsc sc hsc'
      obtain ⟨g1, g2, -⟩ := h2 r g0
      exact ⟨g1, g2, fun k i hk => by cases hk⟩)
  refine ⟨h4, fun t' x hx => ?_⟩
  obtain ⟨g1, g2, g3⟩ := h5 t' x hx
  refine ⟨g1, g2, fun cs hcs => ?_⟩
  obtain ⟨e, u, g4, g5, g6⟩ := g3 cs hcs
  obtain ⟨r, g0, rfl⟩ := hsc e g4
  obtain ⟨-, -, g7, g8⟩ := h2 r g0
  exact ⟨u, g6, by rw [g5]; exact g7, by rw [g5]; exact g8⟩

end Verif.Sync
