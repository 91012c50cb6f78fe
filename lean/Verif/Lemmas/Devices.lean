import Verif.Props.AccountingUpdate
import Verif.Spec.Devices

/-!
# Lemmas for C77: what is recorded is revealed
-/

set_option linter.unusedSectionVars false

namespace Verif.Devices
open Verif Verif.Spec Verif.Props Verif.KeychainIndex

section
variable {K D : Type} [LinearOrder K] [DescriptorOps D] [DecidableEq D]

/-- every recorded output pays a revealed script -/
def Recorded (s : KeychainIndex K D) : Prop := ∀ o k i x, s.inner.txout o = some (toLex (k, i), x) → i < numRevealed s k

theorem Recorded.keep {s s' : KeychainIndex K D} (h : Recorded s) (ht : s'.inner.txouts = s.inner.txouts)
    (hn : ∀ k, numRevealed s k ≤ numRevealed s' k) : Recorded s' := by
  intro o k i x hx
  unfold SpkIndex.txout at hx
  rw [ht] at hx
  exact lt_of_lt_of_le (h o k i x hx) (hn k)

theorem Recorded.reveal {s : KeychainIndex K D} {k : K} {n : Nat} {r} (hr : s.revealToTarget k n = some r) (hi : Inv s)
    (hd : AllDerivable s) (h : Recorded s) : Recorded r.1 := by
  obtain ⟨_, _, _, -, -, -, -, -, -, -, g, -⟩ := reveal_main hr hi hd
  exact h.keep g (fun k' => by rw [(reveal_upd hr).numRevealed k']; exact le_max_left _ _)

theorem Recorded.revealAll {l : List (K × Nat)} {s s' : KeychainIndex K D} (hr : revealAll s l = some s') (hi : Inv s)
    (hd : AllDerivable s) (h : Recorded s) : Recorded s' := by
  induction l generalizing s with
  | nil => cases hr; exact h
  | cons e l ih =>
    rw [revealAll_cons] at hr
    cases h1 : s.revealToTarget e.1 e.2 with
    | none => rw [h1] at hr; cases hr
    | some r =>
      rw [h1] at hr
      have hu := reveal_upd h1
      exact ih hr (hu.inv hd hi) (AllDerivable_congr hu.kc hd) (Recorded.reveal h1 hi hd h)

theorem Recorded.next {s : KeychainIndex K D} {k : K} {r} (hr : s.revealNextSpk k = some r) (hi : Inv s)
    (hd : AllDerivable s) (h : Recorded s) : Recorded r.1 := by
  obtain ⟨n, r', -, h2, -, e1, -⟩ := revealNext_spec hr
  rw [e1]; exact Recorded.reveal h2 hi hd h

theorem Recorded.nextUnused {s : KeychainIndex K D} {k : K} {r} (hr : s.nextUnusedSpk k = some r) (hi : Inv s)
    (hd : AllDerivable s) (h : Recorded s) : Recorded r.1 := by
  obtain ⟨l, -, ⟨-, h1⟩ | ⟨l', -, e1, -⟩⟩ := nextUnused_spec hr
  · exact Recorded.next h1 hi hd h
  · rw [e1]; exact h

theorem Recorded.markUsed {s : KeychainIndex K D} (k : K) (i : Nat) (h : Recorded s) : Recorded (s.markUsed k i).1 := by
  refine h.keep rfl (fun k => le_refl _)

theorem Recorded.scanTxout {s : KeychainIndex K D} {o : OutPoint} {x : TxOut} {r} (hr : s.scanTxout o x = some r) (hi : Inv s)
    (hd : AllDerivable s) (h : Recorded s) : Recorded r.1 := by
  obtain ⟨-, -, a3, a4⟩ := scanTxout_main hr hi hd
  intro o' k i y hy
  by_cases ho : o' = o
  · subst ho
    cases hg : s.inner.spkIndices.get x.spk with
    | none =>
      unfold KeychainIndex.scanTxout at hr
      rw [SpkIndex.scanTxout_none hg] at hr
      cases hr
      exact h _ _ _ _ hy
    | some ki =>
      obtain ⟨c1, c2⟩ := a4 (ofLex ki).1 (ofLex ki).2 ((hi.hist.spk_iff _ _).2 hg)
      rw [c1] at hy
      have h1 := congrArg ofLex (Prod.ext_iff.1 (Option.some.inj hy)).1
      simp only [ofLex_toLex, Prod.mk.injEq] at h1
      rw [← h1.1, ← h1.2]
      exact c2
  · rw [a3 o' ho] at hy
    exact lt_of_lt_of_le (h _ _ _ _ hy) (by rw [(scanTxout_upd hr).numRevealed k]; exact le_max_left _ _)

theorem Recorded.scan {s : KeychainIndex K D} {l : List (OutPoint × TxOut)} {r} (hr : s.scan l = some r) (hi : Inv s)
    (hd : AllDerivable s) (h : Recorded s) : Recorded r.1 := by
  induction l generalizing s r with
  | nil => cases hr; exact h
  | cons e l ih =>
    obtain ⟨r1, r2, g1, g2, g3⟩ := scan_cons hr
    have hu := scanTxout_upd g1
    rw [g3]
    exact ih g2 (hu.inv hd hi) (AllDerivable_congr hu.kc hd) (Recorded.scanTxout g1 hi hd h)

theorem Recorded.setLookahead {s s' : KeychainIndex K D} {k : K} {n : Nat} (hr : s.setLookahead k n = some s') (hi : Inv s)
    (hd : AllDerivable s) (h : Recorded s) : Recorded s' := by
  obtain ⟨d, m, -, -, -, -, b3, -, -, b6, -⟩ := setLookahead_inv hr hi hd
  exact h.keep b6 (fun k => by unfold numRevealed lastRevealedIndex; rw [b3])

theorem Recorded.toTarget {s s' : KeychainIndex K D} {k : K} {n : Nat} (hr : s.lookaheadToTarget k n = some s') (hi : Inv s)
    (hd : AllDerivable s) (h : Recorded s) : Recorded s' := by
  unfold KeychainIndex.lookaheadToTarget at hr
  simp only at hr
  split_ifs at hr
  · cases h1 : s.setLookahead k (n - s.nextStoreIndex k) with
    | none => rw [h1] at hr; cases hr
    | some s1 =>
      rw [h1] at hr
      cases hr
      exact (Recorded.setLookahead h1 hi hd h).keep rfl (fun k => le_refl _)
  · cases hr; exact h

theorem Recorded.fold {α : Type} {f : KeychainIndex K D → α → Option (KeychainIndex K D)}
    (hf : ∀ s a s', f s a = some s' → Upd s s' OMap.empty)
    (hg : ∀ s a s', f s a = some s' → Inv s → AllDerivable s → Recorded s → Recorded s') {l : List α} {s s' : KeychainIndex K D}
    (hr : l.foldlM f s = some s') (hi : Inv s) (hd : AllDerivable s) (h : Recorded s) : Recorded s' := by
  induction l generalizing s with
  | nil => have := Option.some.inj hr; subst this; exact h
  | cons a l ih =>
    rw [List.foldlM_cons] at hr
    cases hfa : f s a with
    | none => rw [hfa] at hr; cases hr
    | some s1 =>
      rw [hfa] at hr
      have hu := hf _ _ _ hfa
      exact ih hr (hu.inv hd hi) (AllDerivable_congr hu.kc hd) (hg _ _ _ hfa hi hd h)

theorem Recorded.multi {s : KeychainIndex K D} {m : OMap K Nat} {r} (hr : s.revealToTargetMulti m = some r) (hi : Inv s)
    (hd : AllDerivable s) (h : Recorded s) : Recorded r.1 := by
  have := applyAdditions_eq (s := s) (a := m)
  unfold KeychainIndex.applyAdditions at this
  rw [hr] at this
  exact Recorded.revealAll this.symm hi hd h

theorem Recorded.step {s : KeychainIndex K D} {op : Op K D} {r} (hr : s.step op = some r) (hi : Inv s) (hd : AllDerivable s)
    (h : Recorded s) : Recorded r.1 := by
  cases op with
  | addKeychain k d =>
    simp only [KeychainIndex.step, Option.map_eq_some_iff] at hr
    obtain ⟨s', h1, rfl⟩ := hr
    have h2 := (addKeychain_inv h1).2.1
    refine h.keep ?_ (fun k => by show _ ≤ numRevealed s' k; unfold numRevealed lastRevealedIndex; rw [h2])
    unfold KeychainIndex.addKeychain at h1
    cases hk : s.keychains.get k with
    | none => rw [hk] at h1; cases h1; rfl
    | some d' =>
      rw [hk] at h1
      simp only at h1
      split_ifs at h1
      cases h1; rfl
  | setLookahead k n =>
    simp only [KeychainIndex.step, Option.map_eq_some_iff] at hr
    obtain ⟨s', h1, rfl⟩ := hr
    exact Recorded.setLookahead h1 hi hd h
  | setLookaheadForAll n =>
    simp only [KeychainIndex.step, Option.map_eq_some_iff] at hr
    obtain ⟨s', h1, rfl⟩ := hr
    exact Recorded.fold (f := fun (s : KeychainIndex K D) (k : K) => s.setLookahead k n) (fun s a s' h => setLookahead_upd h)
      (fun s a s' h hi hd => Recorded.setLookahead h hi hd) h1 hi hd h
  | lookaheadToTarget k n =>
    simp only [KeychainIndex.step, Option.map_eq_some_iff] at hr
    obtain ⟨s', h1, rfl⟩ := hr
    exact Recorded.toTarget h1 hi hd h
  | lookaheadToTargetMulti m =>
    simp only [KeychainIndex.step, Option.map_eq_some_iff] at hr
    obtain ⟨s', h1, rfl⟩ := hr
    exact Recorded.fold (f := fun (s : KeychainIndex K D) (e : K × Nat) => s.lookaheadToTarget e.1 e.2)
      (fun s a s' h => lookaheadToTarget_upd h) (fun s a s' h hi hd => Recorded.toTarget h hi hd) h1 hi hd h
  | revealToTarget k n =>
    simp only [KeychainIndex.step, Option.map_eq_some_iff] at hr
    obtain ⟨r', h1, rfl⟩ := hr
    exact Recorded.reveal h1 hi hd h
  | revealToTargetMulti m =>
    simp only [KeychainIndex.step, Option.map_eq_some_iff] at hr
    obtain ⟨r', h1, rfl⟩ := hr
    exact Recorded.multi h1 hi hd h
  | revealNextSpk k =>
    simp only [KeychainIndex.step, Option.map_eq_some_iff] at hr
    obtain ⟨r', h1, rfl⟩ := hr
    exact Recorded.next h1 hi hd h
  | revealAndReserveNextSpk k =>
    simp only [KeychainIndex.step, Option.map_eq_some_iff] at hr
    obtain ⟨r', h1, rfl⟩ := hr
    obtain ⟨q, h2, h3, -⟩ := revealReserve_spec h1
    show Recorded r'.1
    rw [h3]
    exact (Recorded.next h2 hi hd h).markUsed _ _
  | nextUnusedSpk k =>
    simp only [KeychainIndex.step, Option.map_eq_some_iff] at hr
    obtain ⟨r', h1, rfl⟩ := hr
    exact Recorded.nextUnused h1 hi hd h
  | reserveNextUnusedSpk k =>
    simp only [KeychainIndex.step, Option.map_eq_some_iff] at hr
    obtain ⟨r', h1, rfl⟩ := hr
    obtain ⟨q, h2, h3, -⟩ := reserveUnused_spec h1
    show Recorded r'.1
    rw [h3]
    exact (Recorded.nextUnused h2 hi hd h).markUsed _ _
  | markUsed k i => simp only [KeychainIndex.step] at hr; cases hr; exact h.markUsed _ _
  | unmarkUsed k i =>
    simp only [KeychainIndex.step] at hr; cases hr
    refine h.keep ?_ (fun k => le_refl _)
    show ((s.inner.unmarkUsed (toLex (k, i))).1).txouts = _
    unfold SpkIndex.unmarkUsed
    split_ifs <;> rfl
  | scanTxout o x => simp only [KeychainIndex.step] at hr; exact Recorded.scanTxout hr hi hd h
  | scan l => simp only [KeychainIndex.step] at hr; exact Recorded.scan hr hi hd h
  | applyAdditions a =>
    simp only [KeychainIndex.step, Option.map_eq_some_iff] at hr
    obtain ⟨r', h1, rfl⟩ := hr
    exact Recorded.multi h1 hi hd h

theorem recorded_of_reachable {s : KeychainIndex K D} (h : KeychainIndex.Reachable s) (hd : AllDerivable s) : Recorded s := by
  obtain ⟨ops, log, h⟩ := h
  have gen : ∀ (ops : List (Op K D)) (s0 : KeychainIndex K D) r, s0.runFrom ops = some r → AllDerivable r.1 → Inv s0 →
      Recorded s0 → Recorded r.1 := by
    intro ops
    induction ops with
    | nil => intro s0 r h _ _ hs; cases h; exact hs
    | cons op ops ih =>
      intro s0 r h hd hi hs
      unfold runFrom at h
      cases h1 : s0.step op with
      | none => rw [h1] at h; cases h
      | some r1 =>
        rw [h1] at h
        simp only [Option.bind_eq_bind, Option.bind_some] at h
        cases h2 : r1.1.runFrom ops with
        | none => rw [h2] at h; cases h
        | some r2 =>
          rw [h2] at h
          cases h
          have hd1 : AllDerivable r1.1 := fun k d hk => hd k d ((runFrom_spec h2).1 k d hk)
          have hd0 : AllDerivable s0 := fun k d hk => hd1 k d ((step_spec h1).1 k d hk)
          exact ih r1.1 r2 h2 hd ((step_spec h1).2.2 hd0 hi) (Recorded.step h1 hi hd0 hs)
  exact gen ops empty (s, log) h hd inv_empty (fun o k i x hx => by cases hx)

/-- a recorded output pays the script stored at its index -/
theorem hist_txout {I : Type} [LinearOrder I] {x : SpkIndex I} (hx : HistInv x) {o : OutPoint} {i : I} {t : TxOut}
    (h : x.txout o = some (i, t)) : x.spks.get i = some t.spk := by
  obtain ⟨hs, rfl, hf⟩ := hx
  obtain ⟨h1, h2, rfl, h3, -⟩ := (C30_txout_exact hs o i t).1 h
  exact ((C30_spk_at_index _ i t.spk).2.2 hf).2 (SpkIndex.firstIndex_mono h3 _)

theorem record_script {s : KeychainIndex K D} (hi : Inv s) {o : OutPoint} {k : K} {i : Nat} {x : TxOut}
    (h : s.inner.txout o = some (toLex (k, i), x)) : stored s k i = some x.spk ∧ ScriptOf s k i x.spk :=
  ⟨hist_txout hi.hist h, stored_known hi (hist_txout hi.hist h)⟩

/-- scanning reveals no further than the scripts it finds -/
theorem scan_bound {s : KeychainIndex K D} {l : List (OutPoint × TxOut)} {r} (h : s.scan l = some r) (hf : Sync.Fit s) {k : K} {N : Nat}
    (hN : numRevealed s k ≤ N) (hl : ∀ e ∈ l, ∀ i, ScriptOf s k i e.2.spk → i < N) : numRevealed r.1 k ≤ N := by
  induction l generalizing s r with
  | nil => cases h; exact hN
  | cons e l ih =>
    obtain ⟨r1, r2, g1, g2, g3⟩ := scan_cons h
    have hu := scanTxout_upd g1
    obtain ⟨r1', q1, q2, -⟩ := hf.scanTxout e.1 e.2
    rw [g1] at q1
    cases q1
    rw [g3]
    refine ih g2 q2 ?_ (fun e' he' i hs => hl e' (List.mem_cons_of_mem _ he') i (by unfold ScriptOf at hs ⊢; rw [hu.kc] at hs; exact hs))
    have g1' := g1
    unfold KeychainIndex.scanTxout at g1
    simp only at g1
    cases hg : s.inner.spkIndices.get e.2.spk with
    | none =>
      rw [SpkIndex.scanTxout_none hg] at g1
      cases g1
      exact hN
    | some ki =>
      have hst := (hf.inv.hist.spk_iff ki _).2 hg
      obtain ⟨d, c1, c2, c3⟩ := stored_known hf.inv (k := (ofLex ki).1) (i := (ofLex ki).2) hst
      have hv := innerScan_upd s e.1 e.2
      have hff : Sync.Fit { s with inner := (s.inner.scanTxout e.1 e.2).1 } := ⟨hv.inv hf.der hf.inv, hf.der, hf.nc, hf.room⟩
      obtain ⟨q, hq, -, -, -, -, hnum⟩ := hff.reveal c1 c2
      rw [show (s.inner.scanTxout e.1 e.2).2 = some ki by rw [SpkIndex.scanTxout_some hg]] at g1
      simp only [hq, Option.map_some] at g1
      cases g1
      show numRevealed q.1 k ≤ N
      rw [hnum]
      have e0 : ∀ k, numRevealed { s with inner := (s.inner.scanTxout e.1 e.2).1 } k = numRevealed s k := fun _ => rfl
      rw [e0, e0]
      split
      · next hk =>
        subst hk
        have := hl e List.mem_cons_self _ ⟨d, c1, c2, c3⟩
        exact max_le hN this
      · exact hN

end

section
variable {T : Type} [AsTransaction T] [LawfulTx T] [LinearOrder T]

/-- what an update's graph adds is what it knows -/
theorem added_known {g u : TxGraph T} (hu : TxGraph.KeysOk u) {ho : HashOrder (Txid × TxNode T)} {op : OutPoint} {x : TxOut}
    (h : (op, x) ∈ (g.determineAdditions u ho).txouts) : u.getTxout op = some x := by
  unfold Additions.txouts at h
  rcases List.mem_append.1 h with h | h
  · obtain ⟨y, hy, hyx⟩ := List.mem_flatMap.1 h
    obtain ⟨k, f1, f2⟩ := (TxGraph.determine_tx _ _ _ _).1 (OSet.mem_toList.1 hy)
    obtain ⟨e1, e2⟩ := mem_txouts.1 hyx
    have : k = op.txid := by rw [e1]; exact (hu k y f1).symm
    subst this
    rw [TxGraph.getTxout_whole f1]; exact e2
  · have := OMap.mem_entries.1 h
    rw [TxGraph.determine_txout] at this
    split_ifs at this
    exact this

/-- an output the graph does not know, of a transaction it does not have, is added -/
theorem unknown_added {g u : TxGraph T} (hu : TxGraph.KeysOk u) (ho : HashOrder (Txid × TxNode T)) {op : OutPoint} {x : TxOut}
    (h : u.getTxout op = some x) (h1 : g.getTx op.txid = none) (h2 : g.getTxout op = none) :
    (op, x) ∈ (g.determineAdditions u ho).txouts := by
  unfold Additions.txouts
  cases hx : u.getTx op.txid with
  | some y =>
    rw [TxGraph.getTxout_whole hx] at h
    refine List.mem_append.2 (.inl (List.mem_flatMap.2 ⟨y, ?_, ?_⟩))
    · exact OSet.mem_toList.2 ((TxGraph.determine_tx _ _ _ _).2 ⟨op.txid, hx, h1⟩)
    · exact mem_txouts.2 ⟨(hu _ y hx).symm, h⟩
  | none =>
    refine List.mem_append.2 (.inr (OMap.mem_entries.2 ?_))
    rw [TxGraph.determine_txout, if_pos ⟨h1, hx, by rw [h, h2]; simp⟩]
    exact h

/-- what a graph knows of outputs after it took in another one, if neither says anything wrong -/
theorem merged_outputs {g u : TxGraph T} (hu : TxGraph.KeysOk u) {ho : HashOrder (Txid × TxNode T)} {f : OutPoint → Option TxOut}
    (hg : TrueOutputs f g) (huf : TrueOutputs f u) (op : OutPoint) :
    (g.applyUpdate u ho).1.getTxout op = (g.getTxout op).or (u.getTxout op) := by
  rw [TxGraph.applyUpdate_getTxout hu]
  cases h1 : g.getTx op.txid with
  | some x =>
    have e1 := hg.2 op (by rw [h1]; simp)
    rw [TxGraph.getTxout_whole h1] at e1 ⊢
    show (asTx x).output[op.vout.val]? = _
    cases hu' : u.getTxout op with
    | none => rw [Option.or_none]
    | some y => rw [e1, huf.1 op y hu']; rfl
  | none =>
    cases h2 : u.getTx op.txid with
    | some x =>
      have e1 := huf.2 op (by rw [h2]; simp)
      rw [TxGraph.getTxout_whole h2] at e1 ⊢
      show (asTx x).output[op.vout.val]? = _
      cases hg' : g.getTxout op with
      | none => rfl
      | some y => rw [e1, hg.1 op y hg']; rfl
    | none =>
      show (u.getTxout op).or (g.getTxout op) = _
      cases hx : u.getTxout op with
      | none => rw [Option.or_none]; rfl
      | some x =>
        cases hy : g.getTxout op with
        | none => rfl
        | some y =>
          have := hg.1 op y hy
          rw [huf.1 op x hx] at this
          rw [Option.some.inj this]

theorem merged_true {g u : TxGraph T} (hu : TxGraph.KeysOk u) {ho : HashOrder (Txid × TxNode T)} {f : OutPoint → Option TxOut}
    (hg : TrueOutputs f g) (huf : TrueOutputs f u) : TrueOutputs f (g.applyUpdate u ho).1 := by
  refine ⟨fun op x h => ?_, fun op h => ?_⟩
  · rw [merged_outputs hu hg huf] at h
    rcases Option.or_eq_some_iff.1 h with h | ⟨-, h⟩
    · exact hg.1 op x h
    · exact huf.1 op x h
  · rw [TxGraph.applyUpdate_getTx hu] at h
    rw [merged_outputs hu hg huf]
    cases h1 : g.getTx op.txid with
    | some x =>
      have e1 := hg.2 op (by rw [h1]; simp)
      rw [e1]
      cases hu' : u.getTxout op with
      | none => rw [Option.or_none]
      | some y => rw [huf.1 op y hu']; rfl
    | none =>
      rw [h1, Option.none_or] at h
      have e1 := huf.2 op h
      rw [e1]
      cases hg' : g.getTxout op with
      | none => rfl
      | some y => rw [hg.1 op y hg']; rfl

end

section
variable {K D P T : Type} [LinearOrder K] [DescriptorOps D] [DecidableEq D] [LinearOrder P] [ChainPosition P]
  [LawfulChainPosition P] [AsTransaction T] [LawfulTx T] [LinearOrder T]

theorem fit {t : Tracker K D P T} (h : Working t) : Sync.Fit t.txoutIndex :=
  ⟨reachable_inv (tracker_parts h.reachable).1 h.derivable, h.derivable, h.distinct, h.room⟩

theorem numRevealed_le {s : KeychainIndex K D} {k : K} {N : Nat} :
    numRevealed s k ≤ N ↔ ∀ i, s.lastRevealedIndex k = some i → i < N := by
  unfold numRevealed
  cases s.lastRevealedIndex k with
  | none => simp
  | some i => simp; omega

/-- what an update does to a wallet in working order -/
structure Taken (t : Tracker K D P T) (sc : KeychainScan K P T) (t' : Tracker K D P T) : Prop where
  working : Working t'
  kc : t'.txoutIndex.keychains = t.txoutIndex.keychains
  mono : ∀ k, numRevealed t.txoutIndex k ≤ numRevealed t'.txoutIndex k
  active : ∀ k i, sc.lastActiveIndices.get k = some i → i < numRevealed t'.txoutIndex k
  bound : ∀ k N, numRevealed t.txoutIndex k ≤ N → (∀ i, sc.lastActiveIndices.get k = some i → i < N) →
    (∀ op out i, sc.update.graph.getTxout op = some out → ScriptOf t.txoutIndex k i out.spk → i < N) → numRevealed t'.txoutIndex k ≤ N

theorem taken {t t' : Tracker K D P T} (hw : Working t) {sc : KeychainScan K P T} (hu : sc.update.Reachable)
    (hh : HeightsOk sc.update.chain)
    (hla : ∀ k i, sc.lastActiveIndices.get k = some i → ∃ d, t.txoutIndex.keychains.get k = some d ∧ i ≤ cap d)
    {o : Orders P T} {cs} (h : t.applyUpdate sc o = some (t', .ok cs)) : Taken t sc t' := by
  have hs := Sync.applyUpdate_parts h
  have hui := ChainGraph.reachable_inv hu
  obtain ⟨hreach, hcg⟩ := tracker_parts hw.reachable
  have hup := updated hw.reachable hw.derivable hu h
  obtain ⟨a1, a2, a3, a4, a5, a6, a7⟩ := Sync.stepped_index (fit hw) hs hui.wf.keys hla
  have htook := tookIn (a' := t'.chainGraph) (cs := cs.chainGraph) hcg hu hw.heights hh hw.unlimited
    (o := o) (by rw [hs.chain, ← hs.ok])
  have hb : ∀ k N, numRevealed t.txoutIndex k ≤ N → (∀ i, sc.lastActiveIndices.get k = some i → i < N) →
      (∀ op out i, sc.update.graph.getTxout op = some out → ScriptOf t.txoutIndex k i out.spk → i < N) →
      numRevealed t'.txoutIndex k ≤ N := by
    intro k N h1 h2 h3
    obtain ⟨ix, r, e1, e2, e3⟩ := hs.index
    have hidx : ∀ k i, cs.derivationIndices.get k = some i → sc.lastActiveIndices.get k = some i := by
      intro k i hki
      rw [hs.indices] at hki
      unfold Tracker.newIndices at hki
      rw [OMap.get_filter] at hki
      exact (Option.filter_eq_some_iff.1 hki).1
    obtain ⟨ix', g1, g2, g3, g4, g5, g6⟩ := (fit hw).additions cs.derivationIndices (fun k i hki => hla k i (hidx k i hki))
    rw [e1] at g1
    cases g1
    rw [e3]
    refine scan_bound e2 g2 ?_ ?_
    · rw [g6]
      refine max_le h1 ?_
      cases hx : cs.derivationIndices.get k with
      | none => simp
      | some i => exact h2 i (hidx k i hx)
    · intro e he i hsc
      rw [hs.graph] at he
      unfold ScriptOf at hsc
      rw [g3] at hsc
      exact h3 e.1 e.2 i (added_known hui.wf.keys he) hsc
  refine ⟨⟨hup.reach, a1.der, a1.nc, a1.room, ?_, htook.heights, htook.limit⟩, a2, a4, a5, hb⟩
  intro k i hi
  have hm := bip32Max_val
  have := hb k (bip32MaxIndex + 1) (numRevealed_le.2 (fun j hj => by have := hw.range k j hj; omega))
    (fun j hj => by obtain ⟨d, -, hd⟩ := hla k j hj; have := cap_le d; omega)
    (fun op out j _ ⟨d, _, hd, _⟩ => by have := cap_le d; omega)
  have := numRevealed_le.1 this i hi
  omega

theorem update_graph {t t' : Tracker K D P T} (hw : Working t) {sc : KeychainScan K P T} (hu : sc.update.Reachable)
    {o : Orders P T} {cs} (h : t.applyUpdate sc o = some (t', .ok cs)) :
    t'.chainGraph.graph = (t.chainGraph.graph.applyUpdate sc.update.graph o.graph).1 := by
  have hs := Sync.applyUpdate_parts h
  obtain ⟨h1, h2⟩ := C26_update t.chainGraph sc.update (tracker_parts hw.reachable).2 hu o
  cases hp : (t.chainGraph.chain.applyUpdate sc.update.chain o.chain).2 with
  | error e => have hok := hs.ok; rw [h1 e hp] at hok; cases hok
  | ok cs0 =>
    obtain ⟨-, g2, -⟩ := h2 cs0 hp
    obtain ⟨k1, -⟩ := g2 _ hs.ok
    rw [hs.chain]; exact k1

/-- the records stay exact -/
theorem exact_update {t t' : Tracker K D P T} (hw : Working t) (he : ExactRecords t) {sc : KeychainScan K P T}
    (hu : sc.update.Reachable)
    (hla : ∀ k i, sc.lastActiveIndices.get k = some i → ∃ d, t.txoutIndex.keychains.get k = some d ∧ i ≤ cap d)
    {f : OutPoint → Option TxOut} (hf : TrueOutputs f t.chainGraph.graph) (hfu : TrueOutputs f sc.update.graph)
    (hk : ∀ op out k i, sc.update.graph.getTxout op = some out → t.chainGraph.graph.getTxout op = none →
      ScriptOf t.txoutIndex k i out.spk →
      stored t.txoutIndex k i = some out.spk ∨ ∃ j, sc.lastActiveIndices.get k = some j ∧ i ≤ j)
    {o : Orders P T} {cs} (h : t.applyUpdate sc o = some (t', .ok cs)) : ExactRecords t' := by
  have hs := Sync.applyUpdate_parts h
  have hui := ChainGraph.reachable_inv hu
  have hup := updated hw.reachable hw.derivable hu h
  obtain ⟨a1, a2, a3, a4, a5, a6, a7⟩ := Sync.stepped_index (fit hw) hs hui.wf.keys hla
  have hg := update_graph hw hu h
  have hi := (fit hw).inv
  intro op k i out
  have hsc : ScriptOf t'.txoutIndex k i out.spk ↔ ScriptOf t.txoutIndex k i out.spk := by unfold ScriptOf; rw [a2]
  rw [hg, merged_outputs hui.wf.keys hf hfu, hsc]
  constructor
  · intro hr
    obtain ⟨-, hsc'⟩ := record_script a1.inv hr
    refine ⟨?_, hsc.1 hsc'⟩
    obtain ⟨ix, r, e1, e2, e3⟩ := hs.index
    rw [KeychainIndex.applyAdditions_eq] at e1
    obtain ⟨i1, i2, i3⟩ := revealAll_txouts e1 hi hw.derivable
    rw [e3] at hr
    rcases Accounting.scan_recorded e2 i1 i2 hr with h1 | h1
    · unfold SpkIndex.txout at h1
      rw [i3] at h1
      rw [((he op k i out).1 h1).1]; rfl
    · rw [hs.graph] at h1
      have h2 := added_known hui.wf.keys h1
      cases hx : t.chainGraph.graph.getTxout op with
      | none => rw [h2]; rfl
      | some y =>
        have := hf.1 op y hx
        rw [hfu.1 op _ h2] at this
        rw [← Option.some.inj this]; rfl
  · rintro ⟨h1, h2⟩
    by_cases hadd : ∃ y, (op, y) ∈ cs.chainGraph.graph.txouts
    · obtain ⟨y, hy⟩ := hadd
      have hy' := hy
      rw [hs.graph] at hy'
      have h3 := added_known hui.wf.keys hy'
      have hyo : y = out := by
        have e1 := hfu.1 op y h3
        rcases Option.or_eq_some_iff.1 h1 with h4 | ⟨-, h4⟩
        · have := hf.1 op out h4
          rw [e1] at this; exact Option.some.inj this
        · rw [h3] at h4; exact Option.some.inj h4
      subst hyo
      refine a7 op y k i hy ?_
      cases hx : t.chainGraph.graph.getTxout op with
      | some z =>
        rw [hx] at h1
        cases h1
        exact .inl (record_script hi ((he op k i y).2 ⟨hx, h2⟩)).1
      | none =>
        rcases hk op y k i h3 hx h2 with h4 | ⟨j, h4, h5⟩
        · exact .inl h4
        · obtain ⟨d, c1, c2, c3⟩ := h2
          exact .inr ⟨d, j, c1, c2, c3, h4, h5⟩
    · have hno : ∀ y, (op, y) ∉ cs.chainGraph.graph.txouts := fun y hy => hadd ⟨y, hy⟩
      rw [a6 op _ hno, he]
      refine ⟨?_, h2⟩
      cases hx : t.chainGraph.graph.getTxout op with
      | some z => rw [hx] at h1; cases h1; rfl
      | none =>
        exfalso
        rw [hx] at h1
        apply hno out
        rw [hs.graph]
        refine unknown_added hui.wf.keys _ h1 ?_ hx
        by_contra hn
        have := hf.2 op hn
        rw [hx, hfu.1 op out h1] at this
        cases this

end
end Verif.Devices
