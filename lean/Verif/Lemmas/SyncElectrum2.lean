import Verif.Lemmas.SyncElectrum

/-!
# `Scan` and `Sync` of the electrum example with an honest server
-/

namespace Verif.Sync
open Verif Spec Props SparseChain ChainGraph
variable {K D T : Type} [LinearOrder K] [DescriptorOps D] [DecidableEq D] [LinearOrder T] [AsTransaction T] [LawfulTx T]

theorem finish_answer {t : Tracker K D TxHeight T} {s : Electrum.Server} {get : Txid → Option T} {w : Electrum.World} {v : View TxHeight T}
    (hs : ShowsView s get w v) (h : Ready t v) (e : Electrum.ElectrumUpdate K TxHeight) {F : Txid → Int → Prop}
    (hupd : Electrum.Upd e.chainUpdate e.chainUpdate.checkpointAt w.tip.height)
    (htip : e.chainUpdate.latestCheckpoint = some w.tip)
    (hhd : ∀ h b, e.chainUpdate.checkpointAt h = some b → w.header h = some b.hash)
    (hcon : Electrum.Connects t.chainGraph.chain.checkpoints e.chainUpdate.checkpointAt)
    (hpos : ∀ x p, e.chainUpdate.txPosition x = some p ↔ ∃ raw, F x raw ∧ p = Electrum.determineTxHeight raw w.tip.height x)
    (hF : ∀ x raw, F x raw → ∃ spk, (x, raw) ∈ w.history spk)
    (hla : ∀ k i, e.lastActive.get k = some i → ∃ d, t.txoutIndex.keychains.get k = some d ∧ i ≤ cap d)
    {S : Txid → Prop} (hS : ∀ x, (∃ raw, F x raw) ↔ S x)
    (so : SpendOrder) (o : Orders TxHeight T) :
    ∃ t' cs, electrumFinish t o so get (.ok e) = .ok (t', .ok cs) ∧ After t v S e.lastActive t' := by
  have hcg := (tracker_parts h.reachable).2
  obtain ⟨txs, sc, h1, h2, h3, h4⟩ := answer_electrum hs t.chainGraph hcg e hupd htip hhd hcon hpos hF so
  have h4' := h4.congr (S' := S) hS
  obtain ⟨t', cs, h5, h6⟩ := take_answer h hs.sound h4' o (by rw [h3]; exact hla)
  rw [h3] at h6
  refine ⟨t', cs, ?_, h6⟩
  unfold electrumFinish
  simp only
  rw [h1]
  simp only
  rw [h2]
  simp only
  rw [h5]

theorem below_of_ready {t : Tracker K D TxHeight T} {v : View TxHeight T} {w : Electrum.World} (hm : Mirrors w v) (h : Ready t v) :
    ∀ k x, t.chainGraph.chain.checkpoints.get k = some x → k ≤ w.tip.height := by
  intro k x hx
  rw [hm.tip]
  exact h.below k (hasCp_iff.2 ⟨x, hx⟩)

/-- the `Scan` command with an honest server -/
theorem escan_after {t : Tracker K D TxHeight T} {s : Electrum.Server} {get : Txid → Option T} {w : Electrum.World} {v : View TxHeight T}
    (hs : ShowsView s get w v) (h : Ready t v) (ho : Electrum.Order) (so : SpendOrder) (o : Orders TxHeight T) (gap bs n time : Nat)
    (hbs : 0 < bs) :
    ∃ t' cs la, electrumScan s get ho so o t gap bs (n + 1) time = .ok (t', .ok cs) ∧
      After t v (fun x => ∃ k i spk raw, ScanAsked t w gap k i spk ∧ (x, raw) ∈ w.history spk) la t' ∧
      ∀ k i, la.get k = some i ↔ IsGreatest {i | ∃ spk, ScanAsked t w gap k i spk ∧ w.history spk ≠ []} i := by
  have hm := hs.mirrors
  have hidx : ∀ k l, (spksOfAllKeychains t.txoutIndex).get k = some l → ∀ (n : Nat) (e : Nat × Script), l[n]? = some e → e.1 = n := by
    intro k l hl n e he
    obtain ⟨d, -, -, h2⟩ := spksOfAll_get h.derivable hl
    exact ((h2 n e.1 e.2).1 he).1
  obtain ⟨r, h1, h2, h3, h4, h5, h6, h7⟩ := Electrum.scan_static hs.shows_ (hm.sound hs.sound)
    (hm.complete hs.sound (ops := []) (by intro op hop; cases hop)) ho t.chainGraph.chain.checkpoints (below_of_ready hm h)
    (spksOfAllKeychains t.txoutIndex) (by
      intro k l hl
      have : l.map Prod.fst = List.range l.length := by
        apply List.ext_getElem (by simp)
        intro n hn hn'
        rw [List.getElem_map, List.getElem_range]
        exact hidx k l hl n _ (List.getElem?_eq_getElem _)
      rw [this]
      exact List.nodup_range) [] gap bs hbs n time
  have hset : ∀ k i, (∃ l n spk, (spksOfAllKeychains t.txoutIndex).get k = some l ∧ Electrum.Reached w gap l n ∧
        l[n]? = some (i, spk) ∧ w.history spk ≠ []) ↔ ∃ spk, ScanAsked t w gap k i spk ∧ w.history spk ≠ [] := by
    intro k i
    constructor
    · rintro ⟨l, n, spk, a1, a2, a3, a4⟩
      have := hidx k l a1 n _ a3
      simp only at this
      subst this
      exact ⟨spk, ⟨l, a1, a2, a3⟩, a4⟩
    · rintro ⟨spk, ⟨l, a1, a2, a3⟩, a4⟩
      exact ⟨l, i, spk, a1, a2, a3, a4⟩
  obtain ⟨t', cs, h8, h9⟩ := finish_answer hs h r h2 h3 h4 h5 h6 (by
      rintro x raw (⟨k, l, n, e, -, -, -, hx⟩ | ⟨hx, -⟩ | ⟨_, hx, -⟩)
      · exact ⟨_, hx⟩
      · cases hx
      · cases hx)
    (by
      intro k i hki
      obtain ⟨l, n, spk, a1, -, a3, -⟩ := ((h7 k i).1 hki).1
      obtain ⟨d, hd, -, a5⟩ := spksOfAll_get h.derivable a1
      obtain ⟨rfl, a6, -⟩ := (a5 _ _ _).1 a3
      exact ⟨d, hd, a6⟩)
    (S := fun x => ∃ k i spk raw, ScanAsked t w gap k i spk ∧ (x, raw) ∈ w.history spk) (by
      intro x
      constructor
      · rintro ⟨raw, ⟨k, l, n, ⟨i, spk⟩, a1, a2, a3, a4⟩ | ⟨hx, -⟩ | ⟨_, hx, -⟩⟩
        · have := hidx k l a1 n _ a3
          simp only at this
          subst this
          exact ⟨k, i, spk, raw, ⟨l, a1, a2, a3⟩, a4⟩
        · cases hx
        · cases hx
      · rintro ⟨k, i, spk, raw, ⟨l, a1, a2, a3⟩, a4⟩
        exact ⟨raw, .inl ⟨k, l, i, _, a1, a2, a3, a4⟩⟩) so o
  refine ⟨t', cs, _, ?_, h9, ?_⟩
  · unfold electrumScan
    rw [h1, h8]
  · intro k i
    rw [h7]
    simp only [hset]

/-- the transactions that `Sync` finds -/
def SyncFound (t : Tracker K D TxHeight T) (w : Electrum.World) (v : View TxHeight T) (so : SpendOrder) (f : Flags) (x : Txid) : Prop :=
  (∃ k i spk raw, SyncAsked t f k i spk ∧ (x, raw) ∈ w.history spk) ∨
  (f.unconfirmed = true ∧ IsUnconfirmed t.chainGraph.chain x ∧ ∃ e, v.find x = some e) ∨
  (f.utxos = true ∧ ∃ e ∈ t.fullUtxos so, x = e.2.outpoint.txid ∨ SpentIn v.find e.2.outpoint x)

/-- the `Sync` command with an honest server that knows the transactions of the wallet's outputs -/
theorem esync_after {t : Tracker K D TxHeight T} {s : Electrum.Server} {get : Txid → Option T} {w : Electrum.World} {v : View TxHeight T}
    (hs : ShowsView s get w v) (h : Ready t v) (ho : Electrum.Order) (so so' : SpendOrder) (o : Orders TxHeight T) (f : Flags)
    (bs n time : Nat) (hbs : 0 < bs) (hlen : ∀ l, syncSpks t f.resolve = some l → l.length ≤ u64Max)
    (hkn : f.resolve.utxos = true → UtxosKnown t so v) :
    ∃ t' cs, electrumSync s get ho so so' o t f bs (n + 1) time = .ok (t', .ok cs) ∧
      After t v (SyncFound t w v so f.resolve) OMap.empty t' := by
  have hm := hs.mirrors
  have hcg := (tracker_parts h.reachable).2
  obtain ⟨spks, hs1, hs2⟩ := syncSpks_spec h.reachable h.derivable f.resolve
  obtain ⟨txids, ht1, ht2⟩ := syncTxids_spec h.reachable f.resolve
  have hops : ∀ op, op ∈ syncOutpoints t so f.resolve ↔ f.resolve.utxos = true ∧ ∃ e ∈ t.fullUtxos so, e.2.outpoint = op := by
    intro op
    unfold syncOutpoints
    by_cases hu : f.resolve.utxos = true
    · rw [if_pos hu, List.mem_map]; simp [hu]
    · rw [if_neg hu]; simp [hu]
  have hget : ∀ k l, (OMap.ofList [((), spks.zipIdx.map (fun e => (e.2, e.1)))] : OMap Unit (List (Nat × Script))).get k = some l ↔
      l = spks.zipIdx.map (fun e => (e.2, e.1)) := by
    intro k l
    have : (OMap.ofList [((), spks.zipIdx.map (fun e => (e.2, e.1)))] : OMap Unit (List (Nat × Script))).get k =
        some (spks.zipIdx.map (fun e => (e.2, e.1))) := by rfl
    rw [this]
    simp [eq_comm]
  obtain ⟨r, h1, h2, h3, h4, h5, h6, -⟩ := Electrum.scan_static hs.shows_ (hm.sound hs.sound)
    (hm.complete hs.sound (ops := syncOutpoints t so f.resolve) (by
      intro op hop
      obtain ⟨hu, e, he, rfl⟩ := (hops op).1 hop
      exact hkn hu e he)) ho t.chainGraph.chain.checkpoints (below_of_ready hm h)
    (OMap.ofList [((), spks.zipIdx.map (fun e => (e.2, e.1)))] : OMap Unit (List (Nat × Script))) (by
      intro k l hl
      rw [hget] at hl
      subst hl
      rw [List.map_map]
      have : (Prod.fst ∘ fun e : Script × Nat => (e.2, e.1)) = Prod.snd := rfl
      rw [this, List.zipIdx_map_snd]
      exact List.nodup_range') txids u64Max bs hbs n time
  have hlen' := hlen _ hs1
  obtain ⟨t', cs, h8, h9⟩ := finish_answer hs h (⟨r.chainUpdate, OMap.empty⟩ : Electrum.ElectrumUpdate K TxHeight) h2 h3 h4 h5 h6 (by
      rintro x raw (⟨k, l, n, e, -, -, -, hx⟩ | ⟨-, tx, o, -, -, hx⟩ | ⟨_, -, tx, o, -, -, hx, -⟩)
      · exact ⟨_, hx⟩
      · exact ⟨_, hx⟩
      · exact ⟨_, hx⟩)
    (by
      intro k i hki
      simp only at hki
      rw [OMap.get_empty] at hki; cases hki)
    (S := SyncFound t w v so f.resolve) (by
      intro x
      rw [exists_or, exists_or]
      unfold SyncFound
      refine or_congr ?_ (or_congr ?_ ?_)
      · unfold Electrum.FoundByScript
        constructor
        · rintro ⟨raw, k, l, j, e, hl, -, hj, hx⟩
          rw [hget] at hl
          subst hl
          obtain ⟨e', he', rfl⟩ := List.mem_map.1 (List.mem_of_getElem? hj)
          obtain ⟨k, i, h10⟩ := (hs2 e'.1).1 (List.mem_zipIdx' he' |>.2 ▸ List.getElem_mem _)
          exact ⟨k, i, _, raw, h10, hx⟩
        · rintro ⟨k, i, spk, raw, h10, hx⟩
          have hspk := (hs2 spk).2 ⟨k, i, h10⟩
          obtain ⟨j, hj, rfl⟩ := List.getElem_of_mem hspk
          refine ⟨raw, (), _, j, (j, spks[j]), (hget _ _).2 rfl, ⟨by simpa using hj, ?_⟩, by simp [hj], hx⟩
          rintro ⟨b, h3, -⟩
          omega
      · unfold Electrum.FoundByTxid
        constructor
        · rintro ⟨raw, h10, tx, o, h11, -⟩
          obtain ⟨h12, h13⟩ := (ht2 x).1 h10
          obtain ⟨e, he, -⟩ := hm.known.1 h11
          exact ⟨h12, h13, e, he⟩
        · rintro ⟨h10, h11, e, he⟩
          have hne := hm.outputs x e he
          cases ho : (asTx e.1).output with
          | nil => exact absurd ho hne
          | cons a l =>
            obtain ⟨raw, hraw⟩ := hm.pays x e a he (by rw [ho]; exact List.mem_cons_self)
            exact ⟨raw, (ht2 x).2 ⟨h10, h11⟩, _, a, hm.known.2 ⟨e, he, rfl⟩, by rw [ho]; rfl, hraw⟩
      · unfold Electrum.FoundByOutpoint
        constructor
        · rintro ⟨raw, op, hop, tx, o, h10, h11, h12, h13⟩
          obtain ⟨hu, e, he, rfl⟩ := (hops op).1 hop
          refine ⟨hu, e, he, ?_⟩
          rcases h13 with h13 | ⟨tx', h13, h14⟩
          · exact .inl h13
          · right
            obtain ⟨e', he', rfl⟩ := hm.known.1 h13
            refine ⟨e', he', h14, ?_⟩
            cases hn : e.2.outpoint.isNull with
            | false => rfl
            | true =>
              obtain ⟨e2, he2⟩ := hkn hu e he
              rw [isNull_of_zero hn, hm.no_null] at he2; cases he2
        · rintro ⟨hu, e, he, hx⟩
          obtain ⟨⟨k, i⟩, g⟩ := e
          obtain ⟨e2, he2⟩ := hkn hu _ he
          obtain ⟨-, ⟨y0, hy0, hy1, -⟩, -⟩ := ((C39_full_utxos t h.reachable so).1 k i g).1 he
          simp only at he2 hx
          have hy2 : t.chainGraph.graph.getTx g.outpoint.txid = some y0 := by
            cases hp : t.chainGraph.chain.txPosition g.outpoint.txid with
            | none => rw [(C24_get_tx_in_chain _ hcg _).1 hp] at hy0; cases hy0
            | some q =>
              obtain ⟨z, hz1, hz, -⟩ := (C24_get_tx_in_chain _ hcg _).2 q hp
              rw [hz1] at hy0
              cases hy0
              exact hz
          have hsame : asTx e2.1 = asTx y0 := LawfulTx.txid_inj _ _ (by
            rw [hs.sound.truth.ids _ _ he2]
            exact ((reachable_inv hcg).wf.keys _ _ hy2).symm)
          rw [← hsame] at hy1
          have hop : g.outpoint ∈ syncOutpoints t so f.resolve := (hops _).2 ⟨hu, _, he, rfl⟩
          rcases hx with rfl | ⟨e3, he3, hin, hnn⟩
          · obtain ⟨raw, hraw⟩ := hm.pays _ _ _ he2 (List.mem_of_getElem? hy1)
            exact ⟨raw, _, hop, _, _, hm.known.2 ⟨_, he2, rfl⟩, hy1, hraw, .inl rfl⟩
          · obtain ⟨raw, hraw⟩ := hm.spends x e3 _ e2 _ he3 hin hnn he2 hy1
            exact ⟨raw, _, hop, _, _, hm.known.2 ⟨_, he2, rfl⟩, hy1, hraw, .inr ⟨_, hm.known.2 ⟨_, he3, rfl⟩, hin⟩⟩) so' o
  refine ⟨t', cs, ?_, h9⟩
  unfold electrumSync
  rw [hs1, ht1]
  simp only
  unfold Electrum.scanWithoutKeychain
  rw [h1]
  simp only [updateOfChain]
  exact h8

end Verif.Sync
