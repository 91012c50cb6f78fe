import Verif.Lemmas.SparseChain2

set_option linter.unusedSectionVars false

namespace Verif.SparseChain
open Verif Verif.Spec
variable {P : Type} [LinearOrder P] [ChainPosition P] [LawfulChainPosition P]

/-! ### heights -/

/-- decidable form of `HeightsOk` used for concrete examples -/
def heightsOkB (c : SparseChain P) : Bool :=
  c.checkpoints.entries.all (fun e => decide (e.1 < u32Max)) &&
  c.txidToPos.entries.all (fun e => match ChainPosition.height e.2 with
    | .confirmed h => decide (h < u32Max)
    | .unconfirmed => true)

theorem heightsOk_of_B {c : SparseChain P} (h : heightsOkB c = true) : HeightsOk c := by
  unfold heightsOkB at h
  rw [Bool.and_eq_true, List.all_eq_true, List.all_eq_true] at h
  refine ⟨fun k hk => ?_, fun t p k hp hh => ?_⟩
  · obtain ⟨x, hx⟩ := hasCp_iff.1 hk
    simpa using h.1 (k, x) (OMap.mem_entries.2 hx)
  · have := h.2 (t, p) (OMap.mem_entries.2 hp)
    simp only [hh] at this
    simpa using this

/-- the heights carried by an operation's arguments are below `u32::MAX` -/
def OpHeightsOk : Op P → Prop
  | .applyUpdate u _ => HeightsOk u
  | .applyChangeset cs =>
    (∀ h x, cs.checkpoints.get h = some (some x) → h < u32Max) ∧
    (∀ t p h, cs.txids.get t = some (some p) → ChainPosition.height p = .confirmed h → h < u32Max)
  | .insertTx _ p _ => ∀ h, ChainPosition.height p = .confirmed h → h < u32Max
  | .insertCheckpoint b _ => b.height < u32Max
  | _ => True

theorem prune_cp_sub (c : SparseChain P) {h : Nat} {x : BlockHash}
    (hx : c.pruneCheckpoints.checkpoints.get h = some x) : c.checkpoints.get h = some x := by
  cases hl : c.checkpointLimit with
  | none => rwa [prune_none c hl] at hx
  | some n =>
    rw [prune_get hl] at hx
    split at hx
    · exact hx
    · cases hx

theorem applyChangeset_heightsOk {c : SparseChain P} (hok : HeightsOk c) {cs : ChangeSet P}
    (h1 : ∀ h x, cs.checkpoints.get h = some (some x) → h < u32Max)
    (h2 : ∀ t p h, cs.txids.get t = some (some p) → ChainPosition.height p = .confirmed h → h < u32Max) :
    HeightsOk (c.applyChangeset cs) := by
  refine ⟨fun k hk => ?_, fun t p k hp hh => ?_⟩
  · obtain ⟨x, hx⟩ := hasCp_iff.1 hk
    unfold applyChangeset at hx
    have := prune_cp_sub _ hx
    simp only [] at this
    rw [foldl_applyCheckpoint] at this
    unfold overlay at this
    split at this
    · next o ho => subst this; exact h1 k x ho
    · exact hok.1 k (hasCp_iff.2 ⟨x, this⟩)
  · unfold txPosition at hp
    rw [applyChangeset_tx] at hp
    unfold overlay at hp
    split at hp
    · next o ho => subst hp; exact h2 t p k ho hh
    · exact hok.2 t p k hp hh

theorem unconfirmedPos_height : ChainPosition.height (unconfirmedPos P) = .unconfirmed :=
  LawfulChainPosition.height_max _

theorem determine_heightsOk {c u : SparseChain P} {ho : HashOrder (Txid × P)} (hok : HeightsOk c)
    (hc : Consistent c) (hu : HeightsOk u) {cs : ChangeSet P} (h : c.determineChangeset u ho = .ok cs) :
    (∀ h x, cs.checkpoints.get h = some (some x) → h < u32Max) ∧
    (∀ t p h, cs.txids.get t = some (some p) → ChainPosition.height p = .confirmed h → h < u32Max) := by
  refine ⟨fun k x hx => ?_, fun t p k hp hh => ?_⟩
  · have hd := determine_ok_cp hok h k
    cases hk : u.checkpoints.get k with
    | some v => exact hu.1 k (hasCp_iff.2 ⟨v, hk⟩)
    | none =>
      by_cases hi : Invalidated c u k
      · rw [hd.2.1 hk hi] at hx; cases hc : c.checkpoints.get k <;> rw [hc] at hx <;> cases hx
      · rw [hd.2.2 hk hi] at hx; cases hx
  · have hd := determine_ok_tx hok hc h t
    cases hk : u.txidToPos.get t with
    | some q =>
      rw [hd.1 q hk] at hp
      split at hp
      · cases hp
      · cases hp; exact hu.2 t p k hk hh
    | none =>
      cases hct : c.txidToPos.get t with
      | none => rw [hd.2.1 hk hct] at hp; cases hp
      | some p0 =>
        by_cases hi : ∃ k, ChainPosition.height p0 = .confirmed k ∧ Invalidated c u k
        · rw [hd.2.2.1 p0 hk hct hi] at hp; cases hp
          rw [unconfirmedPos_height] at hh; cases hh
        · rw [hd.2.2.2 p0 hk hct hi] at hp; cases hp

/-- reading the update used by `insert_tx` -/
theorem insertTx_update_heightsOk {c : SparseChain P} (hok : HeightsOk c) (t : Txid) (p : P)
    (hp : ∀ h, ChainPosition.height p = .confirmed h → h < u32Max) (o : OSet (P ×ₗ Txid)) :
    HeightsOk { c.tipUpdate with txidToPos := c.tipUpdate.txidToPos.insert t p, orderedTxids := o } := by
  refine ⟨fun k hk => ?_, fun t' p' k hp' hh => ?_⟩
  · have hk' : HasCp c.tipUpdate k := hk
    obtain ⟨b, hb, _⟩ := tipUpdate_hasCp hk'
    exact hok.1 k ⟨b, hb⟩
  · unfold txPosition at hp'
    simp only [tipUpdate_tx, OMap.get_insert, OMap.get_empty] at hp'
    split at hp'
    · cases hp'; exact hp k hh
    · cases hp'

theorem insertCheckpoint_update_heightsOk {c : SparseChain P} (hok : HeightsOk c) (b : BlockId)
    (hb : b.height < u32Max) :
    HeightsOk { c.tipUpdate with checkpoints := c.tipUpdate.checkpoints.insert b.height b.hash } := by
  refine ⟨fun k hk => ?_, fun t' p' k hp' hh => ?_⟩
  · obtain ⟨x, hx⟩ := hasCp_iff.1 hk
    simp only [OMap.get_insert] at hx
    split at hx
    · next he => subst he; exact hb
    · obtain ⟨b', hb', _⟩ := tipUpdate_hasCp (hasCp_iff.2 ⟨x, hx⟩)
      exact hok.1 k ⟨b', hb'⟩
  · unfold txPosition at hp'
    simp only [tipUpdate_tx, OMap.get_empty] at hp'
    cases hp'

theorem insertTxPreview_ok {c : SparseChain P} {t : Txid} {p : P} {ho : HashOrder (Txid × P)} {cs : ChangeSet P}
    (h : c.insertTxPreview t p ho = .ok cs) :
    c.determineChangeset { c.tipUpdate with
      txidToPos := c.tipUpdate.txidToPos.insert t p
      orderedTxids := c.tipUpdate.orderedTxids.add (toLex (p, t)) } ho = .ok cs ∧
    (∀ k, ChainPosition.height p = .confirmed k → aboveTip k (c.checkpoints.last?.map Prod.fst) = false) := by
  unfold insertTxPreview at h
  simp only [] at h
  split at h
  · cases h
  · next hth =>
    split at h
    · next cs' hd =>
      cases h
      refine ⟨hd, fun k hk => ?_⟩
      rw [hk] at hth
      simp only at hth
      split at hth
      · cases hth
      · next hn => simpa using hn
    · cases h
    · cases h

theorem insertCheckpointPreview_ok {c : SparseChain P} {b : BlockId} {ho : HashOrder (Txid × P)} {cs : ChangeSet P}
    (h : c.insertCheckpointPreview b ho = .ok cs) :
    c.determineChangeset { c.tipUpdate with
      checkpoints := c.tipUpdate.checkpoints.insert b.height b.hash } ho = .ok cs ∧
    (∀ x, c.tipUpdate.checkpoints.get b.height = some x → x = b.hash) := by
  unfold insertCheckpointPreview at h
  simp only [] at h
  split at h
  · cases h
  · next hm =>
    split at h
    · next cs' hd =>
      cases h
      refine ⟨hd, fun x hx => ?_⟩
      rw [hx] at hm
      simp only at hm
      split at hm
      · cases hm
      · next hn => simpa using hn
    · cases h
    · cases h

theorem step_heightsOk {c : SparseChain P} (hok : HeightsOk c) (hc : Consistent c) (op : Op P) (ho : OpHeightsOk op) :
    HeightsOk (c.step op) := by
  cases op with
  | applyUpdate u hord =>
    unfold step applyUpdate; simp only []
    split
    · exact hok
    · next cs h =>
      obtain ⟨h1, h2⟩ := determine_heightsOk hok hc ho h
      exact applyChangeset_heightsOk hok h1 h2
  | applyChangeset cs => exact applyChangeset_heightsOk hok ho.1 ho.2
  | insertTx t p hord =>
    unfold step insertTx applyOk; simp only []
    split
    · next cs h =>
      obtain ⟨h1, h2⟩ := determine_heightsOk hok hc (insertTx_update_heightsOk hok t p ho _) (insertTxPreview_ok h).1
      exact applyChangeset_heightsOk hok h1 h2
    · exact hok
  | insertCheckpoint b hord =>
    unfold step insertCheckpoint applyOk; simp only []
    split
    · next cs h =>
      obtain ⟨h1, h2⟩ := determine_heightsOk hok hc (insertCheckpoint_update_heightsOk hok b ho)
        (insertCheckpointPreview_ok h).1
      exact applyChangeset_heightsOk hok h1 h2
    · exact hok
  | invalidateCheckpoints f =>
    refine applyChangeset_heightsOk hok (fun k x hx => ?_) (fun t p k hp hh => ?_)
    · rw [invalidatePreview_cp] at hx
      split at hx
      · cases hcc : c.checkpoints.get k <;> rw [hcc] at hx <;> cases hx
      · cases hx
    · rw [invalidatePreview_tx c hc] at hp
      split at hp
      · split at hp
        · cases hp; rw [LawfulChainPosition.height_max] at hh; cases hh
        · cases hp
      · cases hp
  | clearMempool =>
    refine applyChangeset_heightsOk hok (fun k x hx => ?_) (fun t p k hp hh => ?_)
    · unfold clearMempoolPreview at hx; simp at hx
    · rw [clearPreview_tx c hc] at hp
      split at hp
      · split at hp <;> cases hp
      · cases hp
  | setCheckpointLimit l =>
    refine ⟨fun k hk => ?_, fun t p k hp hh => ?_⟩
    · obtain ⟨x, hx⟩ := hasCp_iff.1 hk
      exact hok.1 k (hasCp_iff.2 ⟨x, prune_cp_sub { c with checkpointLimit := l } hx⟩)
    · unfold txPosition step setCheckpointLimit at hp
      simp only [(prune_tx _).1] at hp
      exact hok.2 t p k hp hh

theorem run_heightsOk {c : SparseChain P} (hok : HeightsOk c) (hc : Consistent c) (ops : List (Op P))
    (h : ∀ op ∈ ops, OpHeightsOk op) : HeightsOk (c.run ops) := by
  unfold run
  induction ops generalizing c with
  | nil => exact hok
  | cons op ops ih =>
    exact ih (step_heightsOk hok hc op (h op (by simp))) (step_consistent c op hc) (fun o ho => h o (by simp [ho]))

theorem empty_heightsOk : HeightsOk (SparseChain.empty : SparseChain P) := by
  constructor
  · intro h hh; rw [hasCp_iff] at hh; obtain ⟨x, hx⟩ := hh; cases hx
  · intro t p h hp; cases hp

/-! ### the tip -/

theorem isTip_unique {c : SparseChain P} {a b : Nat} (ha : IsTip c a) (hb : IsTip c b) : a = b :=
  Nat.le_antisymm (hb.2 a ha.1) (ha.2 b hb.1)

theorem isTip_last {c : SparseChain P} {t : Nat} : IsTip c t ↔ c.checkpoints.last?.map Prod.fst = some t := by
  have := lastUpdateCp_some (u := c) (t := t)
  unfold lastUpdateCp at this
  exact this.symm

theorem exists_tip {c : SparseChain P} {h : Nat} (hh : HasCp c h) : ∃ t, IsTip c t ∧ h ≤ t := by
  cases hl : lastUpdateCp c with
  | none => exact absurd hh (lastUpdateCp_none.1 hl h)
  | some t => have ht := lastUpdateCp_some.1 hl; exact ⟨t, ht, ht.2 h hh⟩

theorem aboveTip_iff {c : SparseChain P} {k : Nat} :
    aboveTip k (c.checkpoints.last?.map Prod.fst) = true ↔ ∀ t, IsTip c t → t < k := by
  constructor
  · intro h t ht
    rw [isTip_last] at ht
    rw [ht] at h
    simpa [aboveTip] using h
  · intro h
    cases hl : c.checkpoints.last?.map Prod.fst with
    | none => rfl
    | some t => simpa [aboveTip] using h t (isTip_last.2 hl)

theorem prune_tip {c : SparseChain P} (hn : c.checkpointLimit ≠ some 0) {t : Nat} (ht : IsTip c t) :
    IsTip c.pruneCheckpoints t := by
  refine ⟨?_, fun h' hh' => ?_⟩
  · obtain ⟨x, hx⟩ := hasCp_iff.1 ht.1
    cases hl : c.checkpointLimit with
    | none => rw [prune_none c hl]; exact ht.1
    | some n =>
      rw [hasCp_iff]
      refine ⟨x, ?_⟩
      rw [prune_get hl, if_pos, hx]
      have : cpsAbove c t = 0 := by
        unfold cpsAbove
        rw [List.length_eq_zero_iff, List.filter_eq_nil_iff]
        intro k hk
        have := ht.2 k (hasCp_iff.2 (OMap.mem_keys.1 hk))
        simp; omega
      rw [this]
      rcases Nat.eq_zero_or_pos n with h0 | h0
      · subst h0; exact absurd hl hn
      · exact h0
  · obtain ⟨x, hx⟩ := hasCp_iff.1 hh'
    exact ht.2 h' (hasCp_iff.2 ⟨x, prune_cp_sub _ hx⟩)

/-- a block present before pruning guarantees a tip at least as high afterwards -/
theorem tip_after_prune {c : SparseChain P} (hn : c.checkpointLimit ≠ some 0) {h : Nat} (hh : HasCp c h) :
    ∃ t, IsTip c.pruneCheckpoints t ∧ h ≤ t := by
  obtain ⟨t, ht, hle⟩ := exists_tip hh
  exact ⟨t, prune_tip hn ht, hle⟩

/-- the state before the final prune of `apply_changeset` -/
def rawApply (c : SparseChain P) (cs : ChangeSet P) : SparseChain P :=
  { c with
    checkpoints := cs.checkpoints.entries.foldl applyCheckpoint c.checkpoints
    txidToPos := (cs.txids.entries.foldl applyTx (c.txidToPos, c.orderedTxids)).1
    orderedTxids := (cs.txids.entries.foldl applyTx (c.txidToPos, c.orderedTxids)).2 }

theorem applyChangeset_raw (c : SparseChain P) (cs : ChangeSet P) :
    c.applyChangeset cs = (rawApply c cs).pruneCheckpoints := rfl

theorem rawApply_cp (c : SparseChain P) (cs : ChangeSet P) (h : Nat) :
    (rawApply c cs).checkpoints.get h = overlay cs.checkpoints c.checkpoints h :=
  foldl_applyCheckpoint cs.checkpoints _ h

theorem confirmedBelowTip_update {c u : SparseChain P} {ho : HashOrder (Txid × P)} (hok : HeightsOk c)
    (hc : Consistent c) (hn : c.checkpointLimit ≠ some 0) (h1 : ConfirmedBelowTip c) (h2 : ConfirmedBelowTip u)
    {cs : ChangeSet P} (h : c.determineChangeset u ho = .ok cs) : ConfirmedBelowTip (c.applyChangeset cs) := by
  intro t p k hp hh
  rw [applyChangeset_raw]
  have hn' : (rawApply c cs).checkpointLimit ≠ some 0 := hn
  -- a block of the update survives in the raw state
  have hu : ∀ b, HasCp u b → HasCp (rawApply c cs) b := by
    intro b hb
    obtain ⟨v, hv⟩ := hasCp_iff.1 hb
    rw [hasCp_iff]
    refine ⟨v, ?_⟩
    rw [rawApply_cp]; unfold overlay
    rw [(determine_ok_cp hok h b).1 v hv]
    by_cases he : c.checkpoints.get b = some v
    · rw [if_pos he]; simpa using he
    · rw [if_neg he]
  suffices hs : ∃ b, HasCp (rawApply c cs) b ∧ k ≤ b by
    obtain ⟨b, hb, hle⟩ := hs
    obtain ⟨tip, ht, hle'⟩ := tip_after_prune hn' hb
    exact ⟨tip, ht, le_trans hle hle'⟩
  have htx := applyUpdate_ok_tx hok hc h
  unfold txPosition at hp
  cases hut : u.txidToPos.get t with
  | some q =>
    have := htx.1 t q hut
    rw [hp] at this; cases this
    obtain ⟨tip, ht, hle⟩ := h2 t p k hut hh
    exact ⟨tip, hu tip ht.1, hle⟩
  | none =>
    cases hct : c.txidToPos.get t with
    | none => have := htx.2.1 t hut hct; rw [hp] at this; cases this
    | some p0 =>
      by_cases hi : ∃ k, ChainPosition.height p0 = .confirmed k ∧ Invalidated c u k
      · have := htx.2.2.1 t p0 hut hct hi
        rw [hp] at this; cases this
        rw [unconfirmedPos_height] at hh; cases hh
      · have := htx.2.2.2 t p0 hut hct hi
        rw [hp] at this; cases this
        have hki : ¬ Invalidated c u k := fun hk => hi ⟨k, hh, hk⟩
        obtain ⟨tip, ht, hle⟩ := h1 t p k hct hh
        by_cases hti : Invalidated c u tip
        · -- the first invalid block is represented in the update
          obtain ⟨f, hf, hft⟩ := hti
          have hfu : HasCp u f := by
            by_contra hcon
            exact (determine_ok_iff hok).1 ⟨cs, h⟩ |>.1 f ⟨hf, hcon⟩
          refine ⟨f, hu f hfu, ?_⟩
          by_contra hlt
          exact hki ⟨f, hf, by omega⟩
        · refine ⟨tip, ?_, hle⟩
          cases hut2 : u.checkpoints.get tip with
          | some v => exact hu tip (hasCp_iff.2 ⟨v, hut2⟩)
          | none =>
            obtain ⟨x, hx⟩ := hasCp_iff.1 ht.1
            rw [hasCp_iff]
            refine ⟨x, ?_⟩
            rw [rawApply_cp]; unfold overlay
            rw [(determine_ok_cp hok h tip).2.2 hut2 hti]; exact hx

end Verif.SparseChain
