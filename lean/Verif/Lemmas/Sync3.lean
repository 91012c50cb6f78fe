import Verif.Lemmas.Sync2

/-!
# An update of the whole wallet
-/

namespace Verif.Sync
open Verif Spec KeychainIndex Props
variable {K D P T : Type} [LinearOrder K] [DescriptorOps D] [DecidableEq D] [LinearOrder P] [ChainPosition P]
  [LawfulChainPosition P] [LinearOrder T] [AsTransaction T] [LawfulTx T]

omit [LawfulTx T] in
theorem additions_nodup (g u : TxGraph T) (hu : TxGraph.KeysOk u) (ho : HashOrder (Txid × TxNode T)) :
    ((g.determineAdditions u ho).txouts.map Prod.fst).Nodup := by
  unfold Additions.txouts
  rw [List.map_append, List.nodup_append]
  refine ⟨?_, OMap.keys_nodup _, ?_⟩
  · rw [List.map_flatMap, List.nodup_flatMap]
    refine ⟨fun t _ => ?_, ?_⟩
    · unfold Tx.txouts
      rw [List.map_map]
      have h1 : ((asTx t).output.zipIdx.map (Prod.fst ∘ fun e : TxOut × Nat => ((⟨(asTx t).txid, Fin.ofNat _ e.2⟩ : OutPoint), e.1))) =
          (List.range (asTx t).output.length).map (fun n => (⟨(asTx t).txid, Fin.ofNat _ n⟩ : OutPoint)) := by
        apply List.ext_getElem
        · simp
        · intro n h1 h2; simp
      rw [h1]
      refine List.Nodup.map_on ?_ List.nodup_range
      intro a ha b hb hab
      have hs := (asTx t).small
      simp only [List.mem_range] at ha hb
      simp only [OutPoint.mk.injEq, true_and] at hab
      have := congrArg Fin.val hab
      simp only [Fin.val_ofNat] at this
      rw [Nat.mod_eq_of_lt (by omega), Nat.mod_eq_of_lt (by omega)] at this
      exact this
    · refine List.Pairwise.imp_of_mem ?_ (OSet.toList_nodup (g.determineAdditions u ho).tx)
      intro a b ha hb hne
      rw [OSet.mem_toList, TxGraph.determine_tx] at ha hb
      obtain ⟨ka, ha, -⟩ := ha
      obtain ⟨kb, hb, -⟩ := hb
      have ea := hu _ _ ha
      have eb := hu _ _ hb
      intro o h1 h2
      rw [List.mem_map] at h1 h2
      obtain ⟨⟨o1, x1⟩, h1, rfl⟩ := h1
      obtain ⟨⟨o2, x2⟩, h2, he⟩ := h2
      simp only at he
      subst he
      have e1 := (mem_txouts.1 h1).1
      have e2 := (mem_txouts.1 h2).1
      have : ka = kb := by rw [← ea, ← eb, ← e1, ← e2]
      subst this
      rw [ha] at hb
      cases hb
      exact hne rfl
  · intro o h1 o' h2 heq
    subst heq
    rw [List.mem_map] at h1 h2
    obtain ⟨⟨o1, x1⟩, h1, rfl⟩ := h1
    obtain ⟨⟨o2, x2⟩, h2, he⟩ := h2
    simp only at he
    subst he
    rw [List.mem_flatMap] at h1
    obtain ⟨t, ht, h1⟩ := h1
    rw [OSet.mem_toList, TxGraph.determine_tx] at ht
    obtain ⟨k, hk, -⟩ := ht
    rw [OMap.mem_entries, TxGraph.determine_txout] at h2
    split at h2
    · next hc =>
      have e1 := (mem_txouts.1 h1).1
      rw [e1, hu _ _ hk, hk] at hc
      exact absurd hc.2.1 (by simp)
    · cases h2

/-- the parts of a successful `apply_update` -/
structure Stepped (t : Tracker K D P T) (sc : KeychainScan K P T) (o : Orders P T) (t' : Tracker K D P T)
    (cs : KeychainChangeSet K P T) : Prop where
  chain : t'.chainGraph = (t.chainGraph.applyUpdate sc.update o).1
  ok : (t.chainGraph.applyUpdate sc.update o).2 = .ok cs.chainGraph
  graph : cs.chainGraph.graph = t.chainGraph.graph.determineAdditions sc.update.graph o.graph
  indices : cs.derivationIndices = t.newIndices sc.lastActiveIndices
  index : ∃ ix r, t.txoutIndex.applyAdditions cs.derivationIndices = some ix ∧
    ix.scan cs.chainGraph.graph.txouts = some r ∧ t'.txoutIndex = r.1

omit [DecidableEq D] [LawfulChainPosition P] [LawfulTx T] in
theorem chain_changeset {cg u : ChainGraph P T} {o : Orders P T} {cs : CGChangeSet P T} (h : cg.determineChangeset u o = .ok cs) :
    cs.graph = cg.graph.determineAdditions u.graph o.graph ∧ cg.applyUpdate u o = (cg.applyChangeset cs, .ok cs) := by
  refine ⟨?_, ?_⟩
  · unfold ChainGraph.determineChangeset at h
    cases hd : cg.chain.determineChangeset u.chain o.chain with
    | error e => rw [hd] at h; cases h
    | ok c =>
      rw [hd] at h
      simp only at h
      cases hf : cg.fixConflicts ⟨c, cg.graph.determineAdditions u.graph o.graph⟩ o.spend with
      | panic => rw [hf] at h; cases h
      | err e => rw [hf] at h; cases h
      | ok r =>
        rw [hf] at h
        cases h
        unfold ChainGraph.fixConflicts at hf
        split at hf
        · cases hf
        · split at hf
          · cases hf
          · cases hf; rfl
  · unfold ChainGraph.applyUpdate
    rw [h]; rfl

omit [DecidableEq D] [LawfulChainPosition P] [LawfulTx T] in
theorem applyUpdate_parts {t : Tracker K D P T} {sc : KeychainScan K P T} {o : Orders P T} {t' : Tracker K D P T}
    {cs : KeychainChangeSet K P T} (h : t.applyUpdate sc o = some (t', .ok cs)) : Stepped t sc o t' cs := by
  unfold Tracker.applyUpdate at h
  cases hc : t.determineChangeset sc o with
  | panic => rw [hc] at h; cases h
  | err e => rw [hc] at h; cases h
  | ok c =>
    rw [hc] at h
    unfold Tracker.applyOk at h
    simp only [Option.map_eq_some_iff] at h
    obtain ⟨t1, h1, h2⟩ := h
    cases h2
    unfold Tracker.determineChangeset at hc
    cases hd : t.chainGraph.determineChangeset sc.update o with
    | panic => rw [hd] at hc; cases hc
    | err e => rw [hd] at hc; cases hc
    | ok c =>
      rw [hd] at hc
      cases hc
      obtain ⟨g1, g2⟩ := chain_changeset hd
      unfold Tracker.applyChangeset at h1
      cases e1 : t.txoutIndex.applyAdditions (t.newIndices sc.lastActiveIndices) with
      | none => rw [e1] at h1; cases h1
      | some ix =>
        rw [e1] at h1
        simp only [Option.bind_eq_bind, Option.bind_some] at h1
        cases e2 : ix.scan c.graph.txouts with
        | none => rw [e2] at h1; cases h1
        | some q =>
          rw [e2] at h1; cases h1
          exact ⟨by rw [g2], by rw [g2], g1, rfl, ix, q, e1, e2, rfl⟩

omit [LawfulChainPosition P] [LawfulTx T] in
/-- if the chain accepts the update, so does the wallet -/
theorem applyUpdate_ok {t : Tracker K D P T} (hfit : Fit t.txoutIndex) (sc : KeychainScan K P T) (o : Orders P T)
    (hla : ∀ k i, sc.lastActiveIndices.get k = some i → ∃ d, t.txoutIndex.keychains.get k = some d ∧ i ≤ cap d)
    {cs0} (h : (t.chainGraph.applyUpdate sc.update o).2 = .ok cs0) :
    ∃ t' cs, t.applyUpdate sc o = some (t', .ok cs) := by
  unfold Tracker.applyUpdate Tracker.determineChangeset
  have hd : t.chainGraph.determineChangeset sc.update o = .ok cs0 := by
    unfold ChainGraph.applyUpdate at h
    cases hd : t.chainGraph.determineChangeset sc.update o with
    | panic => rw [hd] at h; cases h
    | err e => rw [hd] at h; cases h
    | ok c => rw [hd] at h; cases h; rfl
  rw [hd]
  simp only [Tracker.applyOk, Tracker.applyChangeset]
  obtain ⟨ix, h1, h2, -⟩ := hfit.additions (t.newIndices sc.lastActiveIndices) (fun k i hki => by
    unfold Tracker.newIndices at hki
    rw [OMap.get_filter] at hki
    exact hla k i (Option.filter_eq_some_iff.1 hki).1)
  obtain ⟨r, h3, -⟩ := h2.scan cs0.graph.txouts
  rw [h1]
  simp only [Option.bind_eq_bind, Option.bind_some, h3, Option.map_some]
  exact ⟨_, _, rfl⟩

omit [LawfulChainPosition P] [LawfulTx T] in
/-- the index afterwards -/
theorem stepped_index {t : Tracker K D P T} (hfit : Fit t.txoutIndex) {sc : KeychainScan K P T} {o : Orders P T}
    {t' : Tracker K D P T} {cs : KeychainChangeSet K P T} (h : Stepped t sc o t' cs)
    (hu : TxGraph.KeysOk sc.update.graph)
    (hla : ∀ k i, sc.lastActiveIndices.get k = some i → ∃ d, t.txoutIndex.keychains.get k = some d ∧ i ≤ cap d) :
    Fit t'.txoutIndex ∧ t'.txoutIndex.keychains = t.txoutIndex.keychains ∧ t'.txoutIndex.lookahead = t.txoutIndex.lookahead ∧
    (∀ k, numRevealed t.txoutIndex k ≤ numRevealed t'.txoutIndex k) ∧
    (∀ k i, sc.lastActiveIndices.get k = some i → i < numRevealed t'.txoutIndex k) ∧
    (∀ op x, (∀ y, (op, y) ∉ cs.chainGraph.graph.txouts) → (t'.txoutIndex.inner.txout op = x ↔ t.txoutIndex.inner.txout op = x)) ∧
    (∀ op x k i, (op, x) ∈ cs.chainGraph.graph.txouts → (stored t.txoutIndex k i = some x.spk ∨
        ∃ d j, t.txoutIndex.keychains.get k = some d ∧ i ≤ cap d ∧ spkAt d i = some x.spk ∧ sc.lastActiveIndices.get k = some j ∧ i ≤ j) →
      t'.txoutIndex.inner.txout op = some (toLex (k, i), x)) := by
  obtain ⟨ix, r, h1, h2, h3⟩ := h.index
  rw [h3]
  have hidx : ∀ k i, cs.derivationIndices.get k = some i ↔
      sc.lastActiveIndices.get k = some i ∧ ∀ j, t.txoutIndex.lastRevealedIndex k = some j → j < i := by
    intro k i
    rw [h.indices]
    unfold Tracker.newIndices
    rw [OMap.get_filter]
    cases hm : sc.lastActiveIndices.get k with
    | none => simp
    | some m =>
      rw [Option.filter_some]
      cases hr : t.txoutIndex.lastRevealedIndex k with
      | none => simp
      | some e =>
        simp only [decide_eq_true_eq, gt_iff_lt, Option.some.injEq, forall_eq']
        by_cases hlt : e < m
        · rw [if_pos hlt]
          constructor
          · intro e; cases e; exact ⟨rfl, hlt⟩
          · rintro ⟨rfl, -⟩; rfl
        · rw [if_neg hlt]
          constructor
          · intro e; cases e
          · rintro ⟨rfl, h2⟩; exact absurd h2 hlt
  obtain ⟨ix', g1, g2, g3, g4, g5, g6⟩ := hfit.additions cs.derivationIndices (fun k i hki => hla k i ((hidx k i).1 hki).1)
  rw [h1] at g1
  cases g1
  obtain ⟨r', f1, f2⟩ := g2.scan cs.chainGraph.graph.txouts
  rw [h2] at f1
  cases f1
  obtain ⟨k1, k2, k3, k4⟩ := scan_keeps h2 g2.inv g2.der
  have hle : ∀ k i, sc.lastActiveIndices.get k = some i → i < numRevealed ix k := by
    intro k i hki
    rw [g6]
    by_cases hj : ∀ j, t.txoutIndex.lastRevealedIndex k = some j → j < i
    · rw [(hidx k i).2 ⟨hki, hj⟩]
      simp only [Option.elim]
      omega
    · push Not at hj
      obtain ⟨j, h5, h6⟩ := hj
      have : numRevealed t.txoutIndex k = j + 1 := by unfold numRevealed; rw [h5]
      omega
  have hmono : ∀ k, numRevealed t.txoutIndex k ≤ numRevealed ix k := fun k => by rw [g6]; exact le_max_left _ _
  refine ⟨f2, k1.trans g3, k2.trans g4, fun k => (hmono k).trans (k4 k), fun k i hki => lt_of_lt_of_le (hle k i hki) (k4 k), ?_, ?_⟩
  · intro op x hno
    rw [k3 op hno]
    unfold SpkIndex.txout
    rw [g5]
  · intro op x k i hm hor
    have hnd : (cs.chainGraph.graph.txouts.map Prod.fst).Nodup := by
      rw [h.graph]; exact additions_nodup _ _ hu _
    have hl : ix.lookaheadOf k = t.txoutIndex.lookaheadOf k := by unfold lookaheadOf; rw [g4]
    rcases hor with h5 | ⟨d, j, hk, hc, hx, h5, h6⟩
    · exact scan_finds_stored h2 g2.inv g2.der hnd hm (additions_stored hfit h1 (fun k i hki => hla k i ((hidx k i).1 hki).1) h5)
    · refine (scan_finds h2 g2.inv g2.der hnd hm (by rw [g3]; exact hk) ?_ hc hx).1
      have := hle k j h5; omega

end Verif.Sync
