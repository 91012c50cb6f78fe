import Verif.Lemmas.Sync8
import Verif.Props.ElectrumUpdate
import Verif.Spec.SyncElectrum

/-!
# The answer of an honest electrum server, and the wallet after it
-/

namespace Verif.Sync
open Verif Spec Props SparseChain ChainGraph
variable {K D T : Type} [LinearOrder K] [DescriptorOps D] [DecidableEq D] [LinearOrder T] [AsTransaction T] [LawfulTx T]

omit [LinearOrder T] [LawfulTx T] in
theorem Mirrors.sound {w : Electrum.World} {v : View TxHeight T} (h : Mirrors w v) (hv : v.Sound) : w.Sound :=
  ⟨by rw [h.header, h.tip]; exact hv.tip_header, fun k => by simp only [h.header, h.tip]; exact hv.headers k, by rw [h.tip]; exact hv.small,
    h.one_height⟩

omit [LinearOrder T] [LawfulTx T] in
theorem Mirrors.known {w : Electrum.World} {v : View TxHeight T} (h : Mirrors w v) {x : Txid} {tx : Tx} :
    w.tx x = some tx ↔ ∃ e, v.find x = some e ∧ asTx e.1 = tx := by
  rw [h.tx, Option.map_eq_some_iff]

theorem isNull_of_zero {op : OutPoint} (h : op.isNull = true) : op.txid = 0 := by
  unfold OutPoint.isNull at h
  rw [Bool.and_eq_true] at h
  simpa using h.1

omit [LinearOrder T] [LawfulTx T] in
theorem Mirrors.complete {w : Electrum.World} {v : View TxHeight T} (h : Mirrors w v) (hv : v.Sound) {ops : List OutPoint}
    (hops : ∀ op ∈ ops, ∃ e, v.find op.txid = some e) : w.Complete ops := by
  refine ⟨?_, ?_, ?_, ?_⟩
  · intro k x a hx
    obtain ⟨y, p, h1, -⟩ := h.height _ _ _ hx
    exact ⟨_, h.known.2 ⟨_, h1, rfl⟩⟩
  · intro op hop
    obtain ⟨e, he⟩ := hops op hop
    exact ⟨_, h.known.2 ⟨_, he, rfl⟩⟩
  · intro x tx hx
    obtain ⟨e, he, rfl⟩ := h.known.1 hx
    exact h.outputs x e he
  · intro k op hop x y a b tx ty _ _ hx hy h1 h2
    obtain ⟨e, he, rfl⟩ := h.known.1 hx
    obtain ⟨e', he', rfl⟩ := h.known.1 hy
    cases hn : op.isNull with
    | false => exact hv.truth.no_double_spend x y e e' op he he' h1 h2 hn
    | true =>
      obtain ⟨e, he⟩ := hops op hop
      rw [isNull_of_zero hn, h.no_null] at he; cases he

/-- the update found on an honest server, made into a wallet update with the transactions fetched from it -/
theorem answer_electrum {s : Electrum.Server} {get : Txid → Option T} {w : Electrum.World} {v : View TxHeight T} (hs : ShowsView s get w v)
    (cg : ChainGraph TxHeight T) (hcg : Reachable cg) (e : Electrum.ElectrumUpdate K TxHeight) {F : Txid → Int → Prop}
    (hupd : Electrum.Upd e.chainUpdate e.chainUpdate.checkpointAt w.tip.height)
    (htip : e.chainUpdate.latestCheckpoint = some w.tip)
    (hhd : ∀ h b, e.chainUpdate.checkpointAt h = some b → w.header h = some b.hash)
    (hcon : Electrum.Connects cg.chain.checkpoints e.chainUpdate.checkpointAt)
    (hpos : ∀ x p, e.chainUpdate.txPosition x = some p ↔ ∃ raw, F x raw ∧ p = Electrum.determineTxHeight raw w.tip.height x)
    (hF : ∀ x raw, F x raw → ∃ spk, (x, raw) ∈ w.history spk) (so : SpendOrder) :
    ∃ txs sc, e.fetch cg get = some txs ∧ e.intoKeychainScan txs cg so = .ok sc ∧ sc.lastActiveIndices = e.lastActive ∧
      Answer v cg.chain (fun x => ∃ raw, F x raw) sc.update := by
  have hm := hs.mirrors
  have hfind : ∀ x p, e.chainUpdate.txPosition x = some p → ∃ y, v.find x = some (y, p) := by
    intro x p hp
    obtain ⟨raw, h1, h2⟩ := (hpos x p).1 hp
    obtain ⟨spk, h3⟩ := hF x raw h1
    obtain ⟨y, q, h4, h5⟩ := hm.height _ _ _ h3
    rw [hm.tip, eq_comm, Electrum.C51_height_reading] at h2
    have : p = q := by
      rw [← Electrum.C51_height_reading] at h2 h5
      rw [← h2, ← h5]
    subst this
    exact ⟨y, h4⟩
  have hgetx : ∀ x y, get x = some y → ∃ z, v.find x = some z ∧ asTx z.1 = asTx y := by
    intro x y hy
    have := hs.get x
    rw [hy, hm.tx] at this
    obtain ⟨z, h1, h2⟩ := Option.map_eq_some_iff.1 this.symm
    exact ⟨z, h1, h2⟩
  have hgetid : ∀ x y, get x = some y → (asTx y).txid = x := by
    intro x y hy
    obtain ⟨z, h1, h2⟩ := hgetx x y hy
    rw [← h2]; exact hs.sound.truth.ids x z h1
  have hreach : e.chainUpdate.Reachable := Electrum.reachable_of_agree hupd.pos hupd.lim
  have hmapM : ∀ l : List Txid, (∀ x ∈ l, ∃ y, get x = some y) → ∃ r, l.mapM get = some r := by
    intro l
    induction l with
    | nil => intro _; exact ⟨[], rfl⟩
    | cons a l ih =>
      intro hall
      obtain ⟨y, hy⟩ := hall a List.mem_cons_self
      obtain ⟨r, hr⟩ := ih fun x hx => hall x (List.mem_cons_of_mem _ hx)
      exact ⟨y :: r, by rw [List.mapM_cons, hy, hr]; rfl⟩
  obtain ⟨txs, htxs⟩ := hmapM (e.missingFullTxs cg.graph) (by
    intro x hx
    obtain ⟨h1, -⟩ := ((Electrum.C61_missing_exact e hupd.pos cg.graph).1 x).1 hx
    obtain ⟨p, hp⟩ := Option.ne_none_iff_exists'.1 h1
    obtain ⟨y, hy⟩ := hfind x p hp
    have := hs.get x
    rw [hm.tx, hy] at this
    obtain ⟨z, h2, -⟩ := Option.map_eq_some_iff.1 this
    exact ⟨z, h2⟩)
  have hall := Electrum.C61_fetch_completes e hupd.pos cg cg (fun x t h => ⟨t, h⟩) get hgetid txs htxs
  obtain ⟨h1, h2⟩ := Electrum.C61_into_keychain_scan e hreach cg hcg txs so
  have hgraph : ∀ x y, (cg.inflatedGraph e.chainUpdate txs).getTx x = some y → ∃ z, v.find x = some z ∧ asTx z.1 = asTx y := by
    intro x y hy
    unfold inflatedGraph at hy
    rw [foldl_insertTx_getTx, foldl_insertTx_getTx] at hy
    have he : (TxGraph.empty : TxGraph T).getTx x = none := rfl
    rw [he, Option.none_or] at hy
    rcases Option.or_eq_some_iff.1 hy with hy | ⟨-, hy⟩
    · have hmem := List.mem_of_find?_eq_some hy
      have hid : (asTx y).txid = x := by simpa using List.find?_some hy
      obtain ⟨⟨p, a⟩, h3, h4⟩ := List.mem_filterMap.1 hmem
      have h5 : e.chainUpdate.txPosition a = some p := (hupd.pos.1 p a).1 h3
      have h6 := (reachable_inv hcg).wf.keys _ _ h4
      have h6' : (asTx y).txid = a := h6
      rw [hid] at h6'
      subst h6'
      obtain ⟨z, hz⟩ := hfind x p h5
      exact ⟨_, hz, LawfulTx.txid_inj _ _ (by rw [hs.sound.truth.ids _ _ hz, hid])⟩
    · have hmem := List.mem_of_find?_eq_some hy
      have hid : (asTx y).txid = x := by simpa using List.find?_some hy
      have gen : ∀ (l : List Txid) (r : List T), l.mapM get = some r → ∀ y ∈ r, ∃ x ∈ l, get x = some y := by
        intro l
        induction l with
        | nil => intro r hr y hy; cases hr; cases hy
        | cons a l ih =>
          intro r hr y hy
          rw [List.mapM_cons] at hr
          cases ha : get a with
          | none => rw [ha] at hr; cases hr
          | some t =>
            rw [ha] at hr
            cases hl : l.mapM get with
            | none => rw [hl] at hr; cases hr
            | some r' =>
              rw [hl] at hr
              cases hr
              rcases List.mem_cons.1 hy with rfl | hy
              · exact ⟨a, List.mem_cons_self, ha⟩
              · obtain ⟨x, h1, h2⟩ := ih r' hl y hy
                exact ⟨x, List.mem_cons_of_mem _ h1, h2⟩
      obtain ⟨a, -, ha⟩ := gen _ _ htxs y hmem
      have := hgetid a y ha
      rw [hid] at this
      subst this
      exact hgetx x y ha
  have hnd : NoDoubleSpend e.chainUpdate (cg.inflatedGraph e.chainUpdate txs) := by
    intro a b x y o _ _ hx hy hox hoy hn
    obtain ⟨z, hz, hz'⟩ := hgraph a x hx
    obtain ⟨z2, hz2, hz2'⟩ := hgraph b y hy
    exact hs.sound.truth.no_double_spend a b z z2 o hz hz2 (by rw [hz']; exact hox) (by rw [hz2']; exact hoy) hn
  obtain ⟨sc, hsc⟩ := (h2 hall).1.2 hnd
  obtain ⟨h3, h4, h5⟩ := h1 sc hsc
  refine ⟨txs, sc, htxs, hsc, h4, h5, ?_, ?_, ?_, ?_, ?_⟩
  · intro x p
    rw [h3]
    constructor
    · intro hp
      obtain ⟨raw, h6, -⟩ := (hpos x p).1 hp
      exact ⟨⟨raw, h6⟩, hfind x p hp⟩
    · rintro ⟨⟨raw, h6⟩, y, hy⟩
      rw [hpos]
      refine ⟨raw, h6, ?_⟩
      obtain ⟨spk, h7⟩ := hF x raw h6
      obtain ⟨y', q, h8, h9⟩ := hm.height _ _ _ h7
      rw [hy] at h8
      cases h8
      rw [hm.tip, eq_comm, Electrum.C51_height_reading]
      exact h9
  · intro x y hy
    have hg : sc.update.graph = cg.inflatedGraph e.chainUpdate txs := by
      unfold Electrum.ElectrumUpdate.intoKeychainScan at hsc
      cases hi : cg.inflateUpdate e.chainUpdate txs so with
      | error err => rw [hi] at hsc; cases hsc
      | ok u =>
        rw [hi] at hsc
        cases hsc
        unfold inflateUpdate at hi
        have hgr : TxGraph.Reachable (cg.inflatedGraph e.chainUpdate txs) :=
          foldl_insertTx_reachable _ _ (foldl_insertTx_reachable _ _ .empty)
        rw [((C28_new_ok_iff _ _ hreach hgr so u).1 hi).1]
    rw [hg] at hy
    obtain ⟨z, hz, -⟩ := hgraph x y hy
    exact ⟨z, hz⟩
  · rw [h3, htip, hm.tip]
  · intro h b hb
    rw [h3] at hb
    rw [← hm.header]
    exact hhd h b hb
  · intro h b hb
    rw [h3]
    unfold SparseChain.checkpointAt at hb
    rw [Option.map_eq_some_iff] at hb
    obtain ⟨x, hx, rfl⟩ := hb
    rcases hcon h x hx with h7 | ⟨a, y, h7, h8, h9⟩
    · exact .inl h7
    · exact .inr ⟨a, h7, ⟨a, y⟩, by unfold SparseChain.checkpointAt; rw [h8]; rfl, h9⟩

end Verif.Sync
