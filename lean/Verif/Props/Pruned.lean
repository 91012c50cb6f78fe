import Verif.Spec.Pruned
import Verif.Lemmas.Pruned
import Verif.Lemmas.Devices
import Verif.Props.Devices

/-!
# C78 A checkpoint limit changes nothing until a reorganisation goes deeper than what is remembered
-/

namespace Verif.Props
open Verif Verif.Spec

section chain
open Verif.SparseChain
variable {P : Type} [LinearOrder P] [ChainPosition P] [LawfulChainPosition P]

/-- **C78** setting a limit of at least one on a chain forgets old blocks only -/
theorem C78_set_limit (c : SparseChain P) (hc : c.checkpointLimit = none) (hh : ∀ h, HasCp c h → h ≤ u32Max) (n : Nat) (hn : n ≠ 0) :
    Forgets (c.setCheckpointLimit (some n)) c := by
  obtain ⟨h1, h2, h3⟩ := C11_set_limit_keeps_newest c n
  refine ⟨h2, h3, fun h b hb => ?_, ?_, hh, hc, ?_⟩
  · rw [h1] at hb
    split at hb
    · exact hb
    · cases hb
  · cases ht : c.latestCheckpoint with
    | none =>
      rw [latest_none] at ht ⊢
      intro h
      have := h1 h
      rw [show c.checkpointAt h = none by unfold checkpointAt; rw [ht h]; rfl, ite_self] at this
      exact not_hasCp_iff.1 (fun ⟨b, hb⟩ => by rw [this] at hb; cases hb)
    | some b =>
      obtain ⟨g1, g2⟩ := latest_eq.1 ht
      have h0 : cpsAbove c b.height = 0 := by
        unfold cpsAbove
        rw [List.length_eq_zero_iff, List.filter_eq_nil_iff]
        intro k hk
        obtain ⟨x, hx⟩ := OMap.mem_keys.1 hk
        simpa using g2 k x hx
      have hb := h1 b.height
      rw [if_pos (by omega)] at hb
      refine latest_eq.2 ⟨by rw [cp_of_at hb]; exact g1, fun h x hx => ?_⟩
      have := checkpointAt_eq.2 (⟨rfl, hx⟩ : (⟨h, x⟩ : BlockId).height = h ∧ _)
      rw [h1] at this
      split at this
      · exact g2 h x (checkpointAt_eq.1 this).2
      · cases this
  · show (pruneCheckpoints _).checkpointLimit ≠ _
    rw [(prune_tx _).2.2]
    intro e
    exact hn (Option.some.inj e)

/-- **C78** an update within reach is accepted by the limited chain exactly when it is by the unlimited one, with the same error
otherwise, makes the same changes to transactions, and afterwards still only old blocks are forgotten -/
theorem C78_update {l c u : SparseChain P} (h : Forgets l c) (hr : WithinReach l c u) (hu : ∀ k, HasCp u k → k ≤ u32Max)
    (ho : HashOrder (Txid × P)) :
    Forgets (l.applyUpdate u ho).1 (c.applyUpdate u ho).1 ∧
    match (l.applyUpdate u ho).2, (c.applyUpdate u ho).2 with
    | .ok a, .ok b => a.txids = b.txids
    | .error a, .error b => a = b
    | _, _ => False := by
  rcases SparseChain.determine_alike (ho := ho) (sub_iff.1 h) hr hu with ⟨e, h1, h2⟩ | ⟨ml, mc, txs, h1, h2, h3⟩
  · unfold SparseChain.applyUpdate; rw [h1, h2]; exact ⟨h, rfl⟩
  · unfold SparseChain.applyUpdate; rw [h1, h2]; exact ⟨sub_iff.2 (h3 txs), rfl⟩

/-- **C78** what is forgotten: if nothing was forgotten from height `b` on, and the update is within reach there, then afterwards nothing
is forgotten from the oldest block at or above `b` that the limited chain still has -/
theorem C78_forgets_below {l c u l' c' : SparseChain P} {b : Nat} (h : Forgets l c) (hb : ∀ k, b ≤ k → l.checkpointAt k = c.checkpointAt k)
    (hr : (∀ k, ¬ HasCp u k) ∨ ∃ k, b ≤ k ∧ Agree l u k) {ho : HashOrder (Txid × P)} {a a' : ChangeSet P}
    (hl : l.applyUpdate u ho = (l', .ok a)) (hc : c.applyUpdate u ho = (c', .ok a')) (j k : Nat) (hj : b ≤ j) (hjk : j ≤ k)
    (hcp : HasCp l' j) : l'.checkpointAt k = c'.checkpointAt k := by
  have hs := sub_iff.1 h
  have hr' : WithinReach l c u := by
    rcases hr with hn | ⟨i, hi, hag⟩
    · exact Or.inl hn
    · exact Or.inr (Or.inr ⟨i, hag, fun k hk => hb k (le_trans hi hk)⟩)
  rcases determine_same (ho := ho) hs hr' with ⟨e, h1, h2⟩ | ⟨txs, h1, h2, h3⟩
  · unfold SparseChain.applyUpdate at hl; rw [h1] at hl; cases hl
  · unfold SparseChain.applyUpdate at hl hc
    rw [h1] at hl; rw [h2] at hc
    have el : l' = l.applyChangeset ⟨u.checkpoints.entries.foldl (mergeCheckpoint l) (baseChangeset c u).checkpoints, txs⟩ :=
      (Prod.ext_iff.1 hl).1.symm
    have ec : c' = c.applyChangeset ⟨u.checkpoints.entries.foldl (mergeCheckpoint c) (baseChangeset c u).checkpoints, txs⟩ :=
      (Prod.ext_iff.1 hc).1.symm
    obtain ⟨m, em, hlim, hm⟩ := applyChangeset_cps l
      ⟨u.checkpoints.entries.foldl (mergeCheckpoint l) (baseChangeset c u).checkpoints, txs⟩
    have hck : c'.checkpoints.get k = m.checkpoints.get k := by
      rw [ec, applyChangeset_cp c _ hs.unlimited, hm, overlay_merge, overlay_merge]
      cases u.checkpoints.get k with
      | some v => rfl
      | none => simp only; unfold overlay; rw [cp_of_at (hb k (le_trans hj hjk))]
    have hlk : l'.checkpoints.get k = m.checkpoints.get k := by
      rw [el, em]
      cases hn : m.checkpointLimit with
      | none => rw [prune_none m hn]
      | some n =>
        obtain ⟨x, hx⟩ := hasCp_iff.1 hcp
        rw [el, em, prune_get hn] at hx
        rw [prune_get hn]
        split at hx
        · next hlt =>
          have : cpsAbove m k ≤ cpsAbove m j := by
            unfold cpsAbove
            refine List.Sublist.length_le (List.monotone_filter_right _ fun i hi => ?_)
            simp only [decide_eq_true_eq] at hi ⊢
            omega
          rw [if_pos (by omega)]
        · cases hx
    unfold checkpointAt; rw [hlk, hck]

end chain

section tracker
variable {K D P T : Type} [LinearOrder K] [DescriptorOps D] [LinearOrder P] [ChainPosition P] [LawfulChainPosition P] [LinearOrder T]
  [AsTransaction T]

/-- **C78** setting a limit of at least one on a wallet without one leaves a wallet that differs at most in old blocks -/
theorem C78_limit_wallet (t : Tracker K D P T) (hc : t.chainGraph.chain.checkpointLimit = none)
    (hh : ∀ h, HasCp t.chainGraph.chain h → h ≤ u32Max) (n : Nat) (hn : n ≠ 0) : SameWallet (t.setCheckpointLimit (some n)) t :=
  ⟨rfl, rfl, C78_set_limit t.chainGraph.chain hc hh n hn⟩

/-- the two wallets answer alike -/
theorem alike_apply {ε : Type} {l c : Tracker K D P T} (h : SameWallet l c) {rl rc : Res ε (KeychainChangeSet K P T)}
    (hx : (rl = .panic ∧ rc = .panic) ∨ (∃ e, rl = .err e ∧ rc = .err e) ∨
      ∃ d ml mc txs g, rl = .ok ⟨d, ⟨⟨ml, txs⟩, g⟩⟩ ∧ rc = .ok ⟨d, ⟨⟨mc, txs⟩, g⟩⟩ ∧
        SparseChain.Sub (l.chainGraph.chain.applyChangeset ⟨ml, txs⟩) (c.chainGraph.chain.applyChangeset ⟨mc, txs⟩)) :
    ((l.applyOk rl).map Tracker.logged = none ∧ (c.applyOk rc).map Tracker.logged = none) ∨
    ∃ a b, (l.applyOk rl).map Tracker.logged = some a ∧ (c.applyOk rc).map Tracker.logged = some b ∧ SameWallet a.1 b.1 ∧
      SameReport a.2 b.2 := by
  rcases hx with ⟨rfl, rfl⟩ | ⟨e, rfl, rfl⟩ | ⟨d, ml, mc, txs, g, rfl, rfl, hs⟩
  · exact Or.inl ⟨rfl, rfl⟩
  · exact Or.inr ⟨_, _, rfl, rfl, h, trivial⟩
  · unfold Tracker.applyOk Tracker.applyChangeset
    simp only []
    rw [h.index]
    cases c.txoutIndex.applyAdditions d with
    | none => exact Or.inl ⟨rfl, rfl⟩
    | some i =>
      cases hsc : i.scan g.txouts with
      | none => left; constructor <;> simp [hsc]
      | some r =>
        right
        refine ⟨(⟨r.1, l.chainGraph.applyChangeset ⟨⟨ml, txs⟩, g⟩⟩, some ⟨d, ⟨⟨ml, txs⟩, g⟩⟩),
          (⟨r.1, c.chainGraph.applyChangeset ⟨⟨mc, txs⟩, g⟩⟩, some ⟨d, ⟨⟨mc, txs⟩, g⟩⟩), ?_, ?_, ?_, ?_⟩
        · simp [hsc, Tracker.logged]
        · simp [hsc, Tracker.logged]
        · exact ⟨rfl, by unfold ChainGraph.applyChangeset; rw [h.graph], SparseChain.sub_iff.2 hs⟩
        · exact ⟨rfl, rfl, rfl⟩

/-- **C78** one call: it panics in both wallets or in neither, succeeds in both or fails in both, and afterwards the wallets differ at most
in old blocks, and so do the reported changesets -/
theorem C78_step {l c : Tracker K D P T} (h : SameWallet l c) (op : Tracker.Op K P T) (hr : CallWithinReach l c op) :
    (l.step op = none ∧ c.step op = none) ∨
    ∃ a b, l.step op = some a ∧ c.step op = some b ∧ SameWallet a.1 b.1 ∧ SameReport a.2 b.2 := by
  have hs := SparseChain.sub_iff.1 h.chain
  have hvia : ∀ q : Option (KeychainIndex K D × DerivationAdditions K),
      (l.viaIndex q = none ∧ c.viaIndex q = none) ∨
      ∃ a b, l.viaIndex q = some a ∧ c.viaIndex q = some b ∧ SameWallet a.1 b.1 ∧ SameReport a.2 b.2 := by
    intro q
    cases q with
    | none => exact Or.inl ⟨rfl, rfl⟩
    | some r => exact Or.inr ⟨_, _, rfl, rfl, ⟨rfl, h.graph, h.chain⟩, rfl, rfl, rfl⟩
  cases op with
  | applyUpdate scan o =>
    obtain ⟨h1, h2⟩ := hr
    refine alike_apply h ?_
    unfold Tracker.determineChangeset
    rcases ChainGraph.determine_alike h.graph hs scan.update o h1 h2 with ⟨k1, k2⟩ | ⟨e, k1, k2⟩ | ⟨ml, mc, txs, g, k1, k2, k3⟩
    · rw [k1, k2]; exact Or.inl ⟨rfl, rfl⟩
    · rw [k1, k2]; exact Or.inr (Or.inl ⟨e, rfl, rfl⟩)
    · rw [k1, k2]
      refine Or.inr (Or.inr ⟨_, ml, mc, txs, g, rfl, ?_, k3⟩)
      unfold Tracker.newIndices; rw [h.index]
  | insertTx tx pos o =>
    refine alike_apply h ?_
    unfold Tracker.insertTxPreview
    rcases ChainGraph.insertTx_alike h.graph hs tx pos o with ⟨k1, k2⟩ | ⟨e, k1, k2⟩ | ⟨ml, mc, txs, g, k1, k2, k3⟩
    · rw [k1, k2]; exact Or.inl ⟨rfl, rfl⟩
    · rw [k1, k2]; exact Or.inr (Or.inl ⟨e, rfl, rfl⟩)
    · rw [k1, k2]; exact Or.inr (Or.inr ⟨_, ml, mc, txs, g, rfl, rfl, k3⟩)
  | insertCheckpoint b o =>
    refine alike_apply h ?_
    unfold Tracker.insertCheckpointPreview
    rcases ChainGraph.insertCheckpoint_alike hs b hr o with ⟨k1, k2⟩ | ⟨e, k1, k2⟩ | ⟨ml, mc, txs, g, k1, k2, k3⟩
    · rw [k1, k2]; exact Or.inl ⟨rfl, rfl⟩
    · rw [k1, k2]; exact Or.inr (Or.inl ⟨e, rfl, rfl⟩)
    · rw [k1, k2]; exact Or.inr (Or.inr ⟨_, ml, mc, txs, g, rfl, rfl, k3⟩)
  | revealToTarget k n => unfold Tracker.step; rw [h.index]; exact hvia _
  | revealToTargetMulti m => unfold Tracker.step; rw [h.index]; exact hvia _
  | revealNextSpk k => unfold Tracker.step; rw [h.index]; exact hvia _
  | revealAndReserveNextSpk k => unfold Tracker.step; rw [h.index]; exact hvia _
  | nextUnusedSpk k => unfold Tracker.step; rw [h.index]; exact hvia _
  | reserveNextUnusedSpk k => unfold Tracker.step; rw [h.index]; exact hvia _
  | markUsed k i => unfold Tracker.step; rw [h.index]; exact hvia _
  | unmarkUsed k i => unfold Tracker.step; rw [h.index]; exact hvia _

/-- **C78** a whole history of calls within reach: the wallet with the limit and the one without end in states that differ at most in old
blocks, having reported the same number of changesets, which differ in blocks only -/
theorem C78_history {l c : Tracker K D P T} (h : SameWallet l c) (ops : List (Tracker.Op K P T)) (hr : HistoryWithinReach l c ops) :
    (l.runFrom ops = none ∧ c.runFrom ops = none) ∨
    ∃ a b, l.runFrom ops = some a ∧ c.runFrom ops = some b ∧ SameWallet a.1 b.1 ∧
      List.Forall₂ (fun x y => SameReport (some x) (some y)) a.2 b.2 := by
  induction ops generalizing l c with
  | nil => exact Or.inr ⟨_, _, rfl, rfl, h, .nil⟩
  | cons op ops ih =>
    rcases C78_step h op hr.1 with ⟨h1, h2⟩ | ⟨a, b, h1, h2, h3, h4⟩
    · left; unfold Tracker.runFrom; rw [h1, h2]; exact ⟨rfl, rfl⟩
    · unfold Tracker.runFrom
      rw [h1, h2]
      rcases ih h3 (hr.2 a b h1 h2) with ⟨k1, k2⟩ | ⟨a', b', k1, k2, k3, k4⟩
      · left; exact ⟨by simp [k1], by simp [k2]⟩
      · right
        refine ⟨(a'.1, a.2.toList ++ a'.2), (b'.1, b.2.toList ++ b'.2), by simp [k1], by simp [k2], k3, ?_⟩
        cases ha : a.2 with
        | none =>
          cases hb : b.2 with
          | none => exact k4
          | some y => rw [ha, hb] at h4; exact absurd h4 id
        | some x =>
          cases hb : b.2 with
          | none => rw [ha, hb] at h4; exact absurd h4 id
          | some y => rw [ha, hb] at h4; exact .cons h4 k4

/-- **C78** such wallets report the same outputs, unspent outputs and balances, and the same tip -/
theorem C78_reports {l c : Tracker K D P T} (h : SameWallet l c) :
    (∀ so, l.fullTxouts so = c.fullTxouts so) ∧ (∀ so, l.fullUtxos so = c.fullUtxos so) ∧
    (∀ so trust, l.balance so trust = c.balance so trust) ∧ (∀ so height, l.balanceAt so height = c.balanceAt so height) ∧
    l.chainGraph.transactionsInChain = c.chainGraph.transactionsInChain ∧
    (∀ t, l.chainGraph.getTxInChain t = c.chainGraph.getTxInChain t) ∧
    l.chainGraph.chain.latestCheckpoint = c.chainGraph.chain.latestCheckpoint := by
  have hs := SparseChain.sub_iff.1 h.chain
  have e0 : ∀ so o, l.chainGraph.fullTxout so o = c.chainGraph.fullTxout so o := by
    intro so o
    unfold ChainGraph.fullTxout SparseChain.fullTxout SparseChain.spentBy SparseChain.txPosition
    rw [h.graph, hs.pos]
  have e1 : ∀ so, l.fullTxouts so = c.fullTxouts so := by
    intro so; unfold Tracker.fullTxouts; rw [h.index]; simp only [e0]
  have e2 : ∀ so, l.fullUtxos so = c.fullUtxos so := fun so => by unfold Tracker.fullUtxos; rw [e1]
  have e3 : ∀ t, l.chainGraph.getTxInChain t = c.chainGraph.getTxInChain t := by
    intro t
    unfold ChainGraph.getTxInChain SparseChain.txPosition; rw [h.graph, hs.pos]
  refine ⟨e1, e2, fun so trust => by unfold Tracker.balance; rw [e2, hs.tip], fun so height => by unfold Tracker.balanceAt; rw [e1],
    ?_, e3, hs.tip⟩
  unfold ChainGraph.transactionsInChain SparseChain.txids
  rw [hs.ord, h.graph]

end tracker

section examples
open Verif.Cli

/-- a check for the last part of `WithinReach` -/
theorem kept_of {l c : SparseChain TxHeight} (h : Forgets l c) {b : Nat}
    (hk : (c.checkpoints.keys.all fun k => decide (k < b) || decide (l.checkpoints.get k = c.checkpoints.get k)) = true) :
    ∀ k, b ≤ k → l.checkpointAt k = c.checkpointAt k := by
  intro k hbk
  have : l.checkpoints.get k = c.checkpoints.get k := by
    cases hc : c.checkpoints.get k with
    | none =>
      cases hl : l.checkpoints.get k with
      | none => rfl
      | some x => rw [(SparseChain.sub_iff.1 h).cps k x hl] at hc; cases hc
    | some x =>
      have := List.all_eq_true.1 hk k (OMap.mem_keys.2 ⟨x, hc⟩)
      rw [Bool.or_eq_true] at this
      rcases this with h1 | h1
      · have := of_decide_eq_true h1; omega
      · rw [of_decide_eq_true h1, hc]
  unfold SparseChain.checkpointAt; rw [this]

/-- a check for the range of heights -/
theorem range_of {c : SparseChain TxHeight} (h : (c.checkpoints.keys.all fun k => decide (k ≤ 1000)) = true) :
    ∀ k, HasCp c k → k ≤ u32Max := by
  intro k hk
  obtain ⟨x, hx⟩ := SparseChain.hasCp_iff.1 hk
  have := of_decide_eq_true (List.all_eq_true.1 h k (OMap.mem_keys.2 ⟨x, hx⟩))
  unfold u32Max; omega

/-- a wallet with three blocks and a coin confirmed in the second -/
def longOps : List (Tracker.Op Keychain TxHeight CliTx) :=
  [.insertCheckpoint ⟨5, 15⟩ oC, .insertCheckpoint ⟨6, 16⟩ oC, .insertCheckpoint ⟨7, 17⟩ oC, .revealNextSpk .external,
    .insertTx ⟨0⟩ (.confirmed 6) oC]
def longWallet : CliTracker := ((devBase.runFrom longOps).map Prod.fst).getD devBase
/-- the same with a limit of two blocks -/
def shortWallet : CliTracker := longWallet.setCheckpointLimit (some 2)

theorem short_same : SameWallet shortWallet longWallet :=
  C78_limit_wallet longWallet (by decide +kernel) (range_of (by decide +kernel)) 2 (by decide)

/-- a reorganisation of block 7 -/
def shallow : KeychainScan Keychain TxHeight CliTx := ⟨⟨SparseChain.fromCheckpoints [⟨6, 16⟩, ⟨7, 27⟩, ⟨8, 28⟩], TxGraph.empty⟩, OMap.empty⟩
/-- a reorganisation of blocks 6 and 7 -/
def deep : KeychainScan Keychain TxHeight CliTx := ⟨⟨SparseChain.fromCheckpoints [⟨5, 15⟩, ⟨6, 26⟩, ⟨7, 27⟩], TxGraph.empty⟩, OMap.empty⟩

/-- the hypotheses of `C78_history` hold for a reorganisation that makes the limited wallet forget more -/
example : SameWallet shortWallet longWallet ∧ HistoryWithinReach shortWallet longWallet
      [.applyUpdate shallow oC, .insertCheckpoint ⟨9, 29⟩ oC, .insertTx ⟨3⟩ (.confirmed 9) oC] ∧
    shortWallet.chainGraph.chain.checkpoints.keys = [6, 7] ∧
    (shortWallet.runFrom [.applyUpdate shallow oC, .insertCheckpoint ⟨9, 29⟩ oC, .insertTx ⟨3⟩ (.confirmed 9) oC]).map
      (fun r => r.1.chainGraph.chain.checkpoints.keys) = some [8, 9] ∧
    (longWallet.runFrom [.applyUpdate shallow oC, .insertCheckpoint ⟨9, 29⟩ oC, .insertTx ⟨3⟩ (.confirmed 9) oC]).map
      (fun r => r.1.chainGraph.chain.checkpoints.keys) = some [5, 6, 7, 8, 9] :=
  ⟨short_same,
    ⟨⟨Or.inr (Or.inr ⟨6, ⟨⟨6, 16⟩, by decide +kernel, by decide +kernel⟩, kept_of short_same.chain (by decide +kernel)⟩),
      range_of (by decide +kernel)⟩, fun _ _ _ _ => ⟨show (9 : Nat) ≤ u32Max by unfold u32Max; omega, fun _ _ _ _ => ⟨trivial, fun _ _ _ _ => trivial⟩⟩⟩,
    by decide +kernel, by decide +kernel, by decide +kernel⟩

/-- **C78** the finding: when the limit is one, a reorganisation deeper than what is remembered is accepted by the limited wallet, and a
transaction it displaced stays confirmed there at a height where the chain now has another block -/
theorem C78_deep_reorg : ∃ (l c l' c' : CliTracker) (scan : KeychainScan Keychain TxHeight CliTx) (a b : KeychainChangeSet Keychain TxHeight CliTx),
    SameWallet l c ∧ l.applyUpdate scan oC = some (l', .ok a) ∧ c.applyUpdate scan oC = some (c', .ok b) ∧
    l'.chainGraph.chain.txPosition (cliId 0) = some (.confirmed 6) ∧ c'.chainGraph.chain.txPosition (cliId 0) = some .unconfirmed ∧
    scan.update.chain.checkpointAt 6 = some ⟨6, 26⟩ ∧ c.chainGraph.chain.checkpointAt 6 = some ⟨6, 16⟩ := by
  have hs : SameWallet (longWallet.setCheckpointLimit (some 1)) longWallet :=
    C78_limit_wallet longWallet (by decide +kernel) (range_of (by decide +kernel)) 1 (by decide)
  have h1 : ((longWallet.setCheckpointLimit (some 1)).applyUpdate deep oC).map (fun r => (match r.2 with | .ok _ => true | .error _ => false,
      r.1.chainGraph.chain.txPosition (cliId 0))) = some (true, some (.confirmed 6)) := by decide +kernel
  have h2 : (longWallet.applyUpdate deep oC).map (fun r => (match r.2 with | .ok _ => true | .error _ => false,
      r.1.chainGraph.chain.txPosition (cliId 0))) = some (true, some .unconfirmed) := by decide +kernel
  cases hl : (longWallet.setCheckpointLimit (some 1)).applyUpdate deep oC with
  | none => rw [hl] at h1; cases h1
  | some rl =>
    cases hc : longWallet.applyUpdate deep oC with
    | none => rw [hc] at h2; cases h2
    | some rc =>
      rw [hl] at h1; rw [hc] at h2
      obtain ⟨l', el⟩ := rl
      obtain ⟨c', ec⟩ := rc
      simp only [Option.map_some, Option.some.injEq, Prod.mk.injEq] at h1 h2
      cases el with
      | error _ => cases h1.1
      | ok a =>
        cases ec with
        | error _ => cases h2.1
        | ok b => exact ⟨_, _, l', c', deep, a, b, hs, hl, hc, h1.2, h2.2, by decide +kernel, by decide +kernel⟩

/-- **C78** and an update that only knows a forgotten block is refused by the limited wallet, while the other takes it -/
theorem C78_refuses : ∃ (l c c' : CliTracker) (scan : KeychainScan Keychain TxHeight CliTx) (b : KeychainChangeSet Keychain TxHeight CliTx),
    SameWallet l c ∧ l.applyUpdate scan oC = some (l, .error (.chain (.notConnected 6))) ∧ c.applyUpdate scan oC = some (c', .ok b) := by
  refine ⟨shortWallet, longWallet, ?_⟩
  have h1 : shortWallet.applyUpdate ⟨⟨SparseChain.fromCheckpoints [⟨5, 15⟩], TxGraph.empty⟩, OMap.empty⟩ oC =
      some (shortWallet, .error (.chain (.notConnected 6))) := by decide +kernel
  have h2 : (longWallet.applyUpdate ⟨⟨SparseChain.fromCheckpoints [⟨5, 15⟩], TxGraph.empty⟩, OMap.empty⟩ oC).map
      (fun r => match r.2 with | .ok _ => true | .error _ => false) = some true := by decide +kernel
  cases hc : longWallet.applyUpdate ⟨⟨SparseChain.fromCheckpoints [⟨5, 15⟩], TxGraph.empty⟩, OMap.empty⟩ oC with
  | none => rw [hc] at h2; cases h2
  | some rc =>
    rw [hc] at h2
    obtain ⟨c', ec⟩ := rc
    cases ec with
    | error _ => cases h2
    | ok b => exact ⟨c', _, b, short_same, h1, hc⟩

end examples

end Verif.Props
