import Verif.Lemmas.Living2

/-!
# A wallet on its file: what honest servers deliver
-/

set_option linter.unusedSectionVars false

namespace Verif.Cli
open Verif Verif.CoinSelect Verif.Planner Verif.Spec Verif.Sync Verif.Props KeychainStore

section Servers
variable {D T : Type} [DescriptorOps D] [DecidableEq D] [LinearOrder T] [AsTransaction T] [LawfulTx T]

theorem esplora_delivers {ext : D} {int : Option D} (t : Tracker Keychain D ConfirmationTime T) (v v' : View ConfirmationTime T)
    (cmd : Command ConfirmationTime T) (h : Synced t v) (hv : v.Sound) (hk : HasKeychains ext int t.txoutIndex) (hf : EsploraFetch t v v' cmd) :
    Delivery ext int t v' cmd := by
  cases hf with
  | scan s w o o' gap par fuel n time sc hs hlat hfu hsc =>
    have hready := h.moves hv hlat.kin hlat.below hlat.covered
    refine ⟨viewOf_sound hlat.sound hlat.indexed, ?_, ?_⟩
    · obtain ⟨r, h1, -, h3⟩ := answer_scan hs hlat.sound o t.chainGraph.chain hready.below par fuel n Keychain (spksOfAllKeychains t.txoutIndex)
        (fun _ _ _ _ _ => hfu _) [] [] gap time
      rw [hsc] at h1
      cases h1
      intro k i hki
      obtain ⟨l, hl, n, spk, hn, he, -⟩ := (h3 k i).1 hki
      obtain ⟨d, hd, -, h6⟩ := spksOfAll_get hready.derivable hl
      obtain ⟨rfl, h7, -⟩ := (h6 _ _ _).1 he
      exact ⟨d, (hk k d).1 hd, h7⟩
    · obtain ⟨t', cs, la, h1, h2, -⟩ := scan_after hs hlat.sound hlat.indexed hready o o' gap par fuel n time hfu
      unfold esploraScan finish at h1
      rw [hsc] at h1
      simp only at h1
      cases hu : t.applyUpdate sc o' with
      | none => rw [hu] at h1; cases h1
      | some q =>
        rw [hu] at h1
        cases h1
        obtain ⟨h3, h4⟩ := applyUpdate_split hu
        exact ⟨sc, o', t', cs, .inr rfl, h3, h4, h2.synced⟩
  | sync s w o o' so f par fuel n time spks txids u hs hlat hfu hspks hlen htx hsc =>
    have hready := h.moves hv hlat.kin hlat.below hlat.covered
    refine ⟨viewOf_sound hlat.sound hlat.indexed, ?_, ?_⟩
    · intro k i hki
      unfold scanOfGraph at hki
      simp only [OMap.get_empty] at hki
      cases hki
    · obtain ⟨t', cs, h1, h2⟩ := sync_after hs hlat.sound hlat.indexed hready o o' so f par fuel n time hfu (by
        intro l hl; rw [hspks] at hl; cases hl; exact hlen)
      unfold esploraSync finish at h1
      rw [hspks, htx] at h1
      simp only at h1
      rw [hsc] at h1
      simp only [mapOut] at h1
      cases hu : t.applyUpdate (scanOfGraph u) o' with
      | none => rw [hu] at h1; cases h1
      | some q =>
        rw [hu] at h1
        cases h1
        obtain ⟨h3, h4⟩ := applyUpdate_split hu
        exact ⟨_, o', t', cs, .inr rfl, h3, h4, h2.synced⟩

theorem intoScan_lastActive {P K : Type} [LinearOrder P] [ChainPosition P] [LinearOrder K] {e : Electrum.ElectrumUpdate K P} {txs : List T}
    {cg : ChainGraph P T} {so sc} (h : e.intoKeychainScan txs cg so = .ok sc) : sc.lastActiveIndices = e.lastActive := by
  unfold Electrum.ElectrumUpdate.intoKeychainScan at h
  split at h
  · cases h; rfl
  · cases h

theorem electrum_delivers {ext : D} {int : Option D} (t : Tracker Keychain D TxHeight T) (v v' : View TxHeight T)
    (cmd : Command TxHeight T) (h : Synced t v) (hv : v.Sound) (hk : HasKeychains ext int t.txoutIndex) (hf : ElectrumFetch t v v' cmd) :
    Delivery ext int t v' cmd := by
  cases hf with
  | scan s get w v' ho so o gap bs n time e txs sc hs hlat hbs hsc hfe hin =>
    have hready := h.moves hv hlat.kin hlat.below hlat.covered
    refine ⟨hs.sound, ?_, ?_⟩
    · have hm := hs.mirrors
      obtain ⟨r, h1, -, -, -, -, -, h7⟩ := Electrum.scan_static hs.shows_ (hm.sound hs.sound)
        (hm.complete hs.sound (ops := []) (by intro op hop; cases hop)) ho t.chainGraph.chain.checkpoints (below_of_ready hm hready)
        (spksOfAllKeychains t.txoutIndex) (by
          intro k l hl
          obtain ⟨d, -, -, h2⟩ := spksOfAll_get hready.derivable hl
          have : l.map Prod.fst = List.range l.length := by
            apply List.ext_getElem (by simp)
            intro n hn hn'
            rw [List.getElem_map, List.getElem_range]
            exact ((h2 n _ _).1 (List.getElem?_eq_getElem (by simpa using hn))).1
          rw [this]
          exact List.nodup_range) [] gap bs hbs n time
      rw [hsc] at h1
      cases h1
      intro k i hki
      rw [intoScan_lastActive hin] at hki
      obtain ⟨l, n, spk, a1, -, a3, -⟩ := ((h7 k i).1 hki).1
      obtain ⟨d, hd, -, a5⟩ := spksOfAll_get hready.derivable a1
      obtain ⟨rfl, a6, -⟩ := (a5 _ _ _).1 a3
      exact ⟨d, (hk k d).1 hd, a6⟩
    · obtain ⟨t', cs, la, h1, h2, -⟩ := escan_after hs hready ho so o gap bs n time hbs
      unfold electrumScan at h1
      rw [hsc] at h1
      unfold electrumFinish at h1
      simp only [hfe, hin] at h1
      cases hu : t.applyUpdate sc o with
      | none => rw [hu] at h1; cases h1
      | some q =>
        rw [hu] at h1
        cases h1
        obtain ⟨h3, h4⟩ := applyUpdate_split hu
        exact ⟨sc, o, t', cs, .inl rfl, h3, h4, h2.synced⟩
  | sync s get w v' ho so so' o f bs n time spks txids e txs sc hs hlat hbs hspks hlen htx hsc hfe hin =>
    have hready := h.moves hv hlat.kin hlat.below hlat.covered
    obtain ⟨u, hu, rfl⟩ : ∃ u, Electrum.scanWithoutKeychain s ho t.chainGraph.chain.checkpoints spks txids (syncOutpoints t so f.resolve) bs (n + 1)
        time = .ok u ∧ (⟨u, OMap.empty⟩ : Electrum.ElectrumUpdate Keychain TxHeight) = e := by
      cases hq : Electrum.scanWithoutKeychain s ho t.chainGraph.chain.checkpoints spks txids (syncOutpoints t so f.resolve) bs (n + 1) time with
      | ok u => rw [hq] at hsc; unfold updateOfChain at hsc; cases hsc; exact ⟨u, rfl, rfl⟩
      | _ => rw [hq] at hsc; cases hsc
    refine ⟨hs.sound, ?_, ?_⟩
    · intro k i hki
      rw [intoScan_lastActive hin] at hki
      simp only [OMap.get_empty] at hki
      cases hki
    · obtain ⟨t', cs, h1, h2⟩ := esync_after hs hready ho so so' o f bs n time hbs (by
        intro l hl; rw [hspks] at hl; cases hl; exact hlen) (by
        intro hut e he
        obtain ⟨τ, tx, h1⟩ := Electrum.scanWithoutKeychain_delivered hu e.2.outpoint (by
          unfold syncOutpoints
          rw [if_pos hut]
          exact List.mem_map.2 ⟨e, he, rfl⟩)
        rw [hs.shows_.2.2.2] at h1
        cases hw : w.tx e.2.outpoint.txid with
        | none => rw [hw] at h1; cases h1
        | some tx' =>
          obtain ⟨e', he', -⟩ := hs.mirrors.known.1 hw
          exact ⟨e', he'⟩)
      unfold electrumSync at h1
      rw [hspks, htx] at h1
      simp only at h1
      rw [hsc] at h1
      unfold electrumFinish at h1
      simp only [hfe, hin] at h1
      cases hu : t.applyUpdate sc o with
      | none => rw [hu] at h1; cases h1
      | some q =>
        rw [hu] at h1
        cases h1
        obtain ⟨h3, h4⟩ := applyUpdate_split hu
        exact ⟨sc, o, t', cs, .inl rfl, h3, h4, h2.synced⟩

end Servers

end Verif.Cli
