import Verif.Lemmas.Sync7

/-!
# A wallet over time: the world moves on, addresses are revealed, transactions broadcast
-/

namespace Verif.Sync
open Verif Spec Props SparseChain ChainGraph
variable {K D P T : Type} [LinearOrder K] [DescriptorOps D] [DecidableEq D] [LinearOrder P] [ChainPosition P]
  [LawfulChainPosition P] [LinearOrder T] [AsTransaction T] [LawfulTx T]

theorem After.synced {t t' : Tracker K D P T} {v : View P T} {S la} (h : After t v S la t') : Synced t' v := ⟨h.ready, h.headers⟩

/-- the world moves on -/
theorem Synced.moves {t : Tracker K D P T} {v v' : View P T} (h : Synced t v) (hv : v.Sound) (hk : Kin v v')
    (hb : ∀ k, HasCp t.chainGraph.chain k → k ≤ v'.tip.height) (hc : Covered t.chainGraph.chain v v') : Ready t v' := by
  obtain ⟨h, hh⟩ := h
  refine ⟨h.reachable, h.derivable, h.distinct, h.room, h.heights, hb, ?_, ?_⟩
  · intro a b x y hab hx hy hhd
    rw [hk.history a b y.hash hab (hh b y hy) hhd]
    exact hh a x hx
  · intro x p k hp hkk hall
    have hsame : v'.header k = v.header k := by
      by_contra hne
      obtain ⟨a, b, h1, h2, h3⟩ := hc x p k hp hkk hne
      exact h3 (hall a b h1 h2)
    obtain ⟨y, hy⟩ := h.truthful x p k hp hkk fun a b _ hb => hh a b hb
    obtain ⟨z, hz⟩ := (hv.headers k).2 (hv.below x y p k hy hkk)
    exact ⟨y, hk.txs x y p k z hy hkk hz (by rw [hsame, hz])⟩

/-- if the tip at the last command is still in the best chain, everything is covered -/
theorem covered_of_tip {t : Tracker K D P T} {v v' : View P T} (h : Synced t v) (hv : v.Sound) (hk : Kin v v')
    (ht : v'.header v.tip.height = some v.tip.hash) : Covered t.chainGraph.chain v v' := by
  intro x p k hp hkk hne
  exfalso
  obtain ⟨y, hy⟩ := h.ready.truthful x p k hp hkk fun a b _ hb => h.headers a b hb
  exact hne (hk.history k _ _ (hv.below x y p k hy hkk) hv.tip_header ht)

/-! ## calls of the owner -/

theorem Fit.revealNext {s : KeychainIndex K D} (h : Fit s) {k : K} {r} (hr : s.revealNextSpk k = some r) : Fit r.1 := by
  obtain ⟨n, r', hn, hr', -, e, -, -⟩ := KeychainIndex.revealNext_spec hr
  rw [e]
  unfold KeychainIndex.nextIndex at hn
  cases hk : s.keychains.get k with
  | none => rw [hk] at hn; cases hn
  | some d =>
    have hle : n.1 ≤ cap d := by
      rw [hk] at hn
      simp only at hn
      unfold cap
      cases hl : s.lastRevealed.get k with
      | none => rw [hl] at hn; cases hn; exact Nat.zero_le _
      | some i =>
        rw [hl] at hn
        simp only at hn
        by_cases hw : hasWildcard d = true
        · rw [hw] at hn ⊢
          simp only [Bool.not_true, Bool.false_eq_true, if_false] at hn
          rw [if_pos rfl]
          by_cases h1 : i > bip32MaxIndex
          · rw [if_pos h1] at hn; cases hn
          · rw [if_neg h1] at hn
            by_cases h2 : i = bip32MaxIndex
            · rw [if_pos h2] at hn; cases hn; exact le_of_eq h2
            · rw [if_neg h2] at hn; cases hn; show i + 1 ≤ _; omega
        · rw [Bool.not_eq_true] at hw
          rw [hw] at hn
          cases hn
          exact Nat.zero_le _
    obtain ⟨r2, h1, h2, -⟩ := h.reveal hk hle
    rw [hr'] at h1
    cases h1
    exact h2

omit [DecidableEq D] in
/-- a call that changes only which scripts are reserved -/
theorem Fit.reserved {s s' : KeychainIndex K D} (h : Fit s) (hu : KeychainIndex.Upd s s' OMap.empty) (hl : s'.lookahead = s.lookahead) : Fit s' := by
  refine ⟨hu.inv h.der h.inv, KeychainIndex.AllDerivable_congr hu.kc h.der, ?_, ?_⟩
  · intro k1 d1 i1 k2 d2 j spk; rw [hu.kc]; exact h.nc k1 d1 i1 k2 d2 j spk
  · intro k
    have h1 := h.room k
    rw [hu.numRevealed]
    unfold KeychainIndex.lookaheadOf at *
    rw [hl]
    simpa using h1

theorem Fit.nextUnused {s : KeychainIndex K D} (h : Fit s) {k : K} {r} (hr : s.nextUnusedSpk k = some r) : Fit r.1 := by
  obtain ⟨l, -, ⟨-, h1⟩ | ⟨l', -, e1, -⟩⟩ := KeychainIndex.nextUnused_spec hr
  · exact h.revealNext h1
  · rw [e1]; exact h

theorem Fit.local {t : Tracker K D P T} (h : Fit t.txoutIndex) {op : Tracker.Op K P T} (hl : Local op) {r} (hr : t.step op = some r) :
    Fit r.1.txoutIndex ∧ ((∃ tx pos o, op = .insertTx tx pos o) ∨ r.1.chainGraph = t.chainGraph) := by
  have hvia : ∀ {q : Option (KeychainIndex K D × DerivationAdditions K)}, t.viaIndex q = some r → (∀ x, q = some x → Fit x.1) →
      Fit r.1.txoutIndex ∧ r.1.chainGraph = t.chainGraph := by
    intro q hq hx
    unfold Tracker.viaIndex at hq
    obtain ⟨x, rfl, rfl⟩ := Option.map_eq_some_iff.1 hq
    exact ⟨hx x rfl, rfl⟩
  have hmk : ∀ (s : KeychainIndex K D) k i, Fit s → Fit (s.markUsed k i).1 := fun s k i hs => hs.reserved (KeychainIndex.markUsed_upd s k i) rfl
  cases op with
  | applyUpdate => cases hl
  | insertCheckpoint => cases hl
  | revealToTarget => cases hl
  | revealToTargetMulti => cases hl
  | revealNextSpk k =>
    obtain ⟨h1, h2⟩ := hvia hr (by
      intro x hx
      obtain ⟨y, hy, rfl⟩ := Option.map_eq_some_iff.1 hx
      exact h.revealNext hy)
    exact ⟨h1, .inr h2⟩
  | revealAndReserveNextSpk k =>
    obtain ⟨h1, h2⟩ := hvia hr (by
      intro x hx
      obtain ⟨y, hy, rfl⟩ := Option.map_eq_some_iff.1 hx
      obtain ⟨r', h1, h2, -⟩ := KeychainIndex.revealReserve_spec hy
      simp only
      rw [h2]
      exact hmk _ _ _ (h.revealNext h1))
    exact ⟨h1, .inr h2⟩
  | nextUnusedSpk k =>
    obtain ⟨h1, h2⟩ := hvia hr (by
      intro x hx
      obtain ⟨y, hy, rfl⟩ := Option.map_eq_some_iff.1 hx
      exact h.nextUnused hy)
    exact ⟨h1, .inr h2⟩
  | reserveNextUnusedSpk k =>
    obtain ⟨h1, h2⟩ := hvia hr (by
      intro x hx
      obtain ⟨y, hy, rfl⟩ := Option.map_eq_some_iff.1 hx
      unfold KeychainIndex.reserveNextUnusedSpk at hy
      cases hn : t.txoutIndex.nextUnusedSpk k with
      | none => rw [hn] at hy; cases hy
      | some r' =>
        rw [hn] at hy
        simp only [Option.bind_eq_bind, Option.bind_some] at hy
        cases hs : (r'.1.markUsed k r'.2.1.1).1.inner.spkAtIndex (toLex (k, r'.2.1.1)) with
        | none => rw [hs] at hy; cases hy
        | some spk =>
          rw [hs] at hy
          cases hy
          exact hmk _ _ _ (h.nextUnused hn))
    exact ⟨h1, .inr h2⟩
  | markUsed k i =>
    obtain ⟨h1, h2⟩ := hvia hr (by
      intro x hx
      cases hx
      exact hmk _ _ _ h)
    exact ⟨h1, .inr h2⟩
  | unmarkUsed k i =>
    obtain ⟨h1, h2⟩ := hvia hr (by
      intro x hx
      cases hx
      exact h.reserved (KeychainIndex.unmarkUsed_upd _ k i) rfl)
    exact ⟨h1, .inr h2⟩
  | insertTx tx pos o =>
    refine ⟨?_, .inl ⟨tx, pos, o, rfl⟩⟩
    obtain ⟨q, hq, rfl⟩ := Option.map_eq_some_iff.1 hr
    unfold Tracker.insertTx Tracker.applyOk at hq
    cases hp : t.insertTxPreview tx pos o with
    | panic => rw [hp] at hq; cases hq
    | err e => rw [hp] at hq; cases hq; exact h
    | ok cs =>
      rw [hp] at hq
      obtain ⟨t', h1, rfl⟩ := Option.map_eq_some_iff.1 hq
      unfold Tracker.insertTxPreview at hp
      cases hc : t.chainGraph.insertTxPreview tx pos o with
      | panic => rw [hc] at hp; cases hp
      | err e => rw [hc] at hp; cases hp
      | ok c =>
        rw [hc] at hp
        cases hp
        unfold Tracker.applyChangeset at h1
        obtain ⟨s', h2, h3, -⟩ := h.additions (OMap.empty : DerivationAdditions K) (by intro k i hki; cases hki)
        have h2' : t.txoutIndex.applyAdditions (KeychainChangeSet.ofChainGraph (K := K) c).derivationIndices = some s' := h2
        rw [h2'] at h1
        simp only [Option.bind_eq_bind, Option.bind_some] at h1
        obtain ⟨r1, h4, h5⟩ := h3.scan (KeychainChangeSet.ofChainGraph (K := K) c).chainGraph.graph.txouts
        rw [h4] at h1
        cases h1
        exact h5

/-- a transaction that is sent does not touch blocks or confirmed transactions -/
theorem sent_chain {t : Tracker K D P T} (hr : t.Reachable) (hok : HeightsOk t.chainGraph.chain) {tx : T} {pos : P}
    (hp : ChainPosition.height pos = .unconfirmed) (o : Orders P T) {r} (hs : t.step (.insertTx tx pos o) = some r) :
    (∀ k, r.1.chainGraph.chain.checkpointAt k = t.chainGraph.chain.checkpointAt k) ∧
    (∀ x p k, r.1.chainGraph.chain.txPosition x = some p → ChainPosition.height p = .confirmed k →
      t.chainGraph.chain.txPosition x = some p) ∧
    ∀ x y, t.chainGraph.graph.getTx x = some y → r.1.chainGraph.graph.getTx x = some y := by
  have hcg := (tracker_parts hr).2
  have hi := reachable_inv hcg
  obtain ⟨q, hq, rfl⟩ := Option.map_eq_some_iff.1 hs
  have hcgq : q.1.chainGraph = (t.chainGraph.insertTx tx pos o).1 ∧ ((∃ cs, (t.chainGraph.insertTx tx pos o).2 = .ok cs) ∨ q.1 = t) := by
    unfold Tracker.insertTx Tracker.applyOk at hq
    unfold Tracker.insertTxPreview at hq
    unfold ChainGraph.insertTx ChainGraph.applyOk
    cases hc : t.chainGraph.insertTxPreview tx pos o with
    | panic => rw [hc] at hq; cases hq
    | err e => rw [hc] at hq; cases hq; exact ⟨rfl, .inr rfl⟩
    | ok c =>
      rw [hc] at hq
      obtain ⟨t', h1, rfl⟩ := Option.map_eq_some_iff.1 hq
      unfold Tracker.applyChangeset at h1
      cases h2 : t.txoutIndex.applyAdditions (KeychainChangeSet.ofChainGraph (K := K) c).derivationIndices with
      | none => rw [h2] at h1; cases h1
      | some s' =>
        rw [h2] at h1
        simp only [Option.bind_eq_bind, Option.bind_some] at h1
        cases h3 : s'.scan (KeychainChangeSet.ofChainGraph (K := K) c).chainGraph.graph.txouts with
        | none => rw [h3] at h1; cases h1
        | some r1 =>
          rw [h3] at h1
          cases h1
          exact ⟨rfl, .inl ⟨c, rfl⟩⟩
  obtain ⟨e1, ⟨cs, hcs⟩ | e2⟩ := hcgq
  · obtain ⟨h1, h2⟩ := C26_insert_tx t.chainGraph hcg tx pos o
    have hpl := C12_insert_tx_effect t.chainGraph.chain hok (positionsAgree_of_consistent hi.cons) (reachable_limited hcg)
      (asTx tx).txid pos o.chain
    cases hplain : (t.chainGraph.chain.insertTx (asTx tx).txid pos o.chain).2 with
    | panic =>
      exfalso
      unfold SparseChain.insertTx SparseChain.applyOk at hplain
      unfold ChainGraph.insertTx ChainGraph.applyOk ChainGraph.insertTxPreview at hcs
      cases hc : t.chainGraph.chain.insertTxPreview (asTx tx).txid pos o.chain with
      | panic => rw [hc] at hcs; cases hcs
      | err e => rw [hc] at hplain; cases hplain
      | ok c => rw [hc] at hplain; cases hplain
    | err e => rw [h1 e hplain] at hcs; cases hcs
    | ok cs0 =>
      obtain ⟨p1, p2, p3⟩ := hpl cs0 hplain
      obtain ⟨-, h3, -⟩ := h2 cs0 hplain
      obtain ⟨g1, g2, g3, g4⟩ := h3 cs hcs
      show (∀ k, q.1.chainGraph.chain.checkpointAt k = _) ∧ (∀ x p k, q.1.chainGraph.chain.txPosition x = some p → _) ∧
        ∀ x y, _ → q.1.chainGraph.graph.getTx x = _
      rw [e1]
      refine ⟨fun k => by rw [g2, p3], ?_, fun x y hy => by rw [g1, TxGraph.insertTx_getTx, hy]; rfl⟩
      intro x p k hx hk
      by_cases hX : ¬ InChain t.chainGraph.chain (asTx tx).txid ∧ ChainConflict t.chainGraph.chain t.chainGraph.graph (asTx tx) x
      · rw [g3 x hX] at hx; cases hx
      · rw [g4 x hX] at hx
        by_cases hxt : x = (asTx tx).txid
        · subst hxt
          rw [p1] at hx
          cases hx
          rw [hp] at hk; cases hk
        · rw [p2 x hxt] at hx; exact hx
  · show (∀ k, q.1.chainGraph.chain.checkpointAt k = _) ∧ (∀ x p k, q.1.chainGraph.chain.txPosition x = some p → _) ∧
      ∀ x y, _ → q.1.chainGraph.graph.getTx x = _
    rw [e2]
    exact ⟨fun _ => rfl, fun _ _ _ h _ => h, fun _ _ h => h⟩

/-- the owner's calls keep the wallet as it was with respect to the world -/
theorem Synced.local {t : Tracker K D P T} {v : View P T} (h : Synced t v) {op : Tracker.Op K P T} (hl : Local op) {r}
    (hr : t.step op = some r) : Synced r.1 v := by
  obtain ⟨hf, hcase⟩ := h.ready.fit.local hl hr
  have hreach : r.1.Reachable := tracker_step_reachable h.ready.reachable op (by cases op <;> first | trivial | cases hl) hr
  have hch : (∀ k, r.1.chainGraph.chain.checkpointAt k = t.chainGraph.chain.checkpointAt k) ∧
      ∀ x p k, r.1.chainGraph.chain.txPosition x = some p → ChainPosition.height p = .confirmed k → t.chainGraph.chain.txPosition x = some p := by
    rcases hcase with ⟨tx, pos, o, rfl⟩ | e
    · obtain ⟨a, b, -⟩ := sent_chain h.ready.reachable h.ready.heights hl o hr
      exact ⟨a, b⟩
    · rw [e]; exact ⟨fun _ => rfl, fun _ _ _ h _ => h⟩
  obtain ⟨hc1, hc2⟩ := hch
  have hhas : ∀ k, HasCp r.1.chainGraph.chain k ↔ HasCp t.chainGraph.chain k := by intro k; unfold HasCp; rw [hc1]
  refine ⟨⟨hreach, hf.der, hf.nc, hf.room, ⟨fun k hk => h.ready.heights.1 k ((hhas k).1 hk), fun x p k hp hk => h.ready.heights.2 x p k (hc2 x p k hp hk) hk⟩,
    fun k hk => h.ready.below k ((hhas k).1 hk), ?_, ?_⟩, fun k b hb => h.headers k b (by rw [← hc1]; exact hb)⟩
  · intro a b x y hab hx hy
    rw [hc1] at hx hy
    exact h.ready.linked a b x y hab hx hy
  · intro x p k hp hk hall
    exact h.ready.truthful x p k (hc2 x p k hp hk) hk fun a b ha hb => hall a b ha (by rw [hc1]; exact hb)

omit [DecidableEq D] [LawfulTx T] in
/-- a refused update leaves the wallet as it is -/
theorem sync_error {t t1 : Tracker K D ConfirmationTime T} {s : Esplora.Server T} {o o' : Orders ConfirmationTime T} {so : SpendOrder} {f : Flags}
    {par fuel n time : Nat} {e} (h : esploraSync s o o' so t f par fuel n time = .ok (t1, .error e)) : t1 = t := by
  unfold esploraSync at h
  rcases ha : syncSpks t f.resolve with _ | a
  · rw [ha] at h; cases h
  rcases hb : syncTxids t f.resolve with _ | b
  · rw [ha, hb] at h; cases h
  rw [ha, hb] at h
  simp only at h
  generalize hq : mapOut (scanOfGraph (K := K)) (Esplora.scanWithoutKeychain s o t.chainGraph.chain.checkpoints a b
    (syncOutpoints t so f.resolve) par fuel n time) = q at h
  unfold finish at h
  rcases q with sc | _ | _ | _
  · simp only at h
    unfold Tracker.applyUpdate at h
    cases hd : t.determineChangeset sc o' with
    | panic => rw [hd] at h; cases h
    | err e' => rw [hd] at h; cases h; rfl
    | ok cs =>
      rw [hd] at h
      unfold Tracker.applyOk at h
      simp only at h
      cases ha : t.applyChangeset cs with
      | none => rw [ha] at h; cases h
      | some t2 => rw [ha] at h; cases h
  · cases h
  · cases h
  · cases h

end Verif.Sync
