import Verif.Spec.Pruned
import Verif.Lemmas.SparseChain
import Verif.Lemmas.SparseChain2
import Verif.Lemmas.SparseChain3

/-!
# Chains with and without a checkpoint limit side by side (lemmas for C78)
-/

namespace Verif.SparseChain
open Verif Verif.Spec
variable {P : Type} [LinearOrder P] [ChainPosition P] [LawfulChainPosition P]

theorem latest_eq {c : SparseChain P} {b : BlockId} :
    c.latestCheckpoint = some b ↔ c.checkpoints.get b.height = some b.hash ∧
      ∀ h x, c.checkpoints.get h = some x → h ≤ b.height := by
  unfold latestCheckpoint
  rw [Option.map_eq_some_iff]
  constructor
  · rintro ⟨⟨k, v⟩, h, rfl⟩
    exact OMap.last?_eq_some.1 h
  · intro h
    exact ⟨(b.height, b.hash), OMap.last?_eq_some.2 h, rfl⟩

theorem latest_none {c : SparseChain P} : c.latestCheckpoint = none ↔ ∀ h, c.checkpoints.get h = none := by
  unfold latestCheckpoint
  rw [Option.map_eq_none_iff, OMap.last?_eq_none, OMap.eq_empty_iff]

/-- the maps of the two chains -/
structure Sub (l c : SparseChain P) : Prop where
  pos : l.txidToPos = c.txidToPos
  ord : l.orderedTxids = c.orderedTxids
  cps : ∀ h x, l.checkpoints.get h = some x → c.checkpoints.get h = some x
  tip : l.latestCheckpoint = c.latestCheckpoint
  heights : ∀ h x, c.checkpoints.get h = some x → h ≤ u32Max
  unlimited : c.checkpointLimit = none
  limit : l.checkpointLimit ≠ some 0

theorem cp_of_at {l c : SparseChain P} {h : Nat} (e : l.checkpointAt h = c.checkpointAt h) :
    l.checkpoints.get h = c.checkpoints.get h := by
  unfold checkpointAt at e
  cases h1 : l.checkpoints.get h <;> cases h2 : c.checkpoints.get h <;> rw [h1, h2] at e <;> simp at e <;> simp [e]

theorem ord_of_txids {l c : SparseChain P} (e : l.txids = c.txids) : l.orderedTxids = c.orderedTxids := by
  unfold txids at e
  have hinj : Function.Injective (ofLex : (P ×ₗ Txid) → P × Txid) := fun _ _ h => h
  have : l.orderedTxids.toList = c.orderedTxids.toList := (List.map_inj_right (fun _ _ h => hinj h)).1 e
  refine OSet.ext_mem fun k => ?_
  have h1 : k ∈ l.orderedTxids.toList ↔ k ∈ c.orderedTxids.toList := by rw [this]
  rw [OSet.mem_toList, OSet.mem_toList] at h1
  exact Bool.eq_iff_iff.2 h1

theorem sub_iff {l c : SparseChain P} : Forgets l c ↔ Sub l c := by
  constructor
  · intro h
    refine ⟨OMap.ext_get h.positions, ord_of_txids h.listing, fun k x hx => ?_, h.tip,
      fun k x hx => h.heights k (hasCp_iff.2 ⟨x, hx⟩), h.unlimited, h.limit⟩
    have := h.blocks k ⟨k, x⟩ (checkpointAt_eq.2 ⟨rfl, hx⟩)
    exact (checkpointAt_eq.1 this).2
  · intro h
    refine ⟨fun t => ?_, ?_, fun k b hb => ?_, h.tip, fun k hk => ?_, h.unlimited, h.limit⟩
    · unfold txPosition; rw [h.pos]
    · unfold txids; rw [h.ord]
    · have := checkpointAt_eq.1 hb
      exact checkpointAt_eq.2 ⟨this.1, h.cps _ _ this.2⟩
    · obtain ⟨x, hx⟩ := hasCp_iff.1 hk
      exact h.heights k x hx

/-- nothing at the sentinel height is forgotten -/
theorem Sub.top {l c : SparseChain P} (h : Sub l c) (k : Nat) (hk : u32Max ≤ k) : l.checkpoints.get k = c.checkpoints.get k := by
  cases hc : c.checkpoints.get k with
  | none =>
    cases hl : l.checkpoints.get k with
    | none => rfl
    | some x => rw [h.cps k x hl] at hc; cases hc
  | some x =>
    have ht : c.latestCheckpoint = some ⟨k, x⟩ := latest_eq.2 ⟨hc, fun j y hy => le_trans (h.heights j y hy) hk⟩
    rw [← h.tip] at ht
    exact (latest_eq.1 ht).1

/-- an update within reach meets the same blocks from the start of the invalidation range on -/
theorem near {l c u : SparseChain P} (h : Sub l c) (hr : WithinReach l c u) :
    invalidLb l u = invalidLb c u ∧ ∀ k, invalidLb c u ≤ k → l.checkpoints.get k = c.checkpoints.get k := by
  rcases hr with hn | he | ⟨h0, hag, hab⟩
  · have : ∀ s : SparseChain P, invalidLb s u = u32Max := fun s => by
      unfold invalidLb; exact if_pos (Or.inl (lastUpdateCp_none.2 hn))
    rw [this l, this c]
    exact ⟨rfl, fun k hk => h.top k hk⟩
  · have e : l.checkpoints = c.checkpoints := OMap.ext_get fun k => cp_of_at (he k)
    refine ⟨?_, fun k _ => by rw [e]⟩
    unfold invalidLb agreementPoint; rw [e]
  · have hagc : Agree c u h0 := by
      obtain ⟨b, h1, h2⟩ := hag
      exact ⟨b, by rw [← hab h0 (le_refl _)]; exact h1, h2⟩
    have key : ∀ a, h0 ≤ a → (Agree l u a ↔ Agree c u a) := fun a ha => by unfold Agree; rw [hab a ha]
    have hap : agreementPoint l u = agreementPoint c u := by
      cases ha : agreementPoint c u with
      | none => exact absurd hagc (agreementPoint_none.1 ha h0)
      | some a =>
        obtain ⟨g1, g2⟩ := agreementPoint_some.1 ha
        have hle := g2 h0 hagc
        refine agreementPoint_some.2 ⟨(key a hle).2 g1, fun a' ha' => ?_⟩
        by_cases hx : h0 ≤ a'
        · exact g2 a' ((key a' hx).1 ha')
        · omega
    have hlb : invalidLb l u = invalidLb c u := by unfold invalidLb; rw [hap]
    refine ⟨hlb, fun k hk => cp_of_at (hab k ?_)⟩
    obtain ⟨x, hx⟩ := hasCp_iff.1 (⟨_, hagc.choose_spec.1⟩ : HasCp c h0)
    have hmax := h.heights h0 x hx
    unfold invalidLb at hk
    split at hk
    · omega
    · cases ha : agreementPoint c u with
      | none => exact absurd hagc (agreementPoint_none.1 ha h0)
      | some a =>
        rw [ha] at hk
        have := (agreementPoint_some.1 ha).2 h0 hagc
        simp only at hk
        omega

theorem filter_same {l c : SparseChain P} {b : Nat} (h : ∀ k, b ≤ k → l.checkpoints.get k = c.checkpoints.get k) :
    l.checkpoints.filter (fun k _ => decide (b ≤ k)) = c.checkpoints.filter (fun k _ => decide (b ≤ k)) := by
  refine OMap.ext_get fun k => ?_
  rw [OMap.get_filter, OMap.get_filter]
  by_cases hk : b ≤ k
  · rw [h k hk]
  · simp [hk]

theorem invalidFrom_same {l c u : SparseChain P} (h1 : invalidLb l u = invalidLb c u)
    (h2 : ∀ k, invalidLb c u ≤ k → l.checkpoints.get k = c.checkpoints.get k) : invalidFrom l u = invalidFrom c u := by
  unfold invalidFrom; rw [h1, filter_same h2]

theorem preview_same {l c : SparseChain P} (ho : l.orderedTxids = c.orderedTxids) {f : Nat}
    (h : ∀ k, f ≤ k → l.checkpoints.get k = c.checkpoints.get k) :
    l.invalidateCheckpointsPreview f = c.invalidateCheckpointsPreview f := by
  unfold invalidateCheckpointsPreview rangeList; rw [filter_same h, ho]

theorem base_same {l c u : SparseChain P} (h : Sub l c) (hr : WithinReach l c u) : baseChangeset l u = baseChangeset c u := by
  obtain ⟨h1, h2⟩ := near h hr
  unfold baseChangeset
  rw [invalidFrom_same h1 h2]
  cases hf : invalidFrom c u with
  | none => rfl
  | some f =>
    refine preview_same h.ord fun k hk => h2 k (le_trans ?_ hk)
    unfold invalidFrom at hf
    obtain ⟨⟨a, b⟩, he, rfl⟩ := Option.map_eq_some_iff.1 hf
    have := (OMap.first?_eq_some.1 he).1
    rw [OMap.get_filter] at this
    by_contra hc
    simp [hc] at this

theorem inconsistent_same {l c u : SparseChain P} {ho : HashOrder (Txid × P)} (h : Sub l c) (h1 : invalidLb l u = invalidLb c u) :
    findInconsistent l u ho = findInconsistent c u ho := by
  unfold findInconsistent; rw [h.pos, h1]

/-- the two chains decide alike; an accepted update contains the first block it displaces -/
theorem determine_same {l c u : SparseChain P} {ho : HashOrder (Txid × P)} (h : Sub l c) (hr : WithinReach l c u) :
    (∃ e, l.determineChangeset u ho = .error e ∧ c.determineChangeset u ho = .error e) ∨
    ∃ txs, l.determineChangeset u ho =
        .ok ⟨u.checkpoints.entries.foldl (mergeCheckpoint l) (baseChangeset c u).checkpoints, txs⟩ ∧
      c.determineChangeset u ho = .ok ⟨u.checkpoints.entries.foldl (mergeCheckpoint c) (baseChangeset c u).checkpoints, txs⟩ ∧
      (∀ f, invalidFrom c u = some f → HasCp u f) := by
  obtain ⟨h1, h2⟩ := near h hr
  have hf := invalidFrom_same h1 h2
  have hi := inconsistent_same (ho := ho) h h1
  have hb := base_same h hr
  have hm : mergeTx l = mergeTx c := by funext m e; unfold mergeTx; rw [h.pos]
  unfold determineChangeset
  rw [hf, hi, hb, hm]
  cases hfc : invalidFrom c u with
  | none =>
    cases hic : findInconsistent c u ho with
    | none => exact Or.inr ⟨_, rfl, rfl, fun f hf => by cases hf⟩
    | some e => exact Or.inl ⟨e, rfl, rfl⟩
  | some f =>
    cases hcon : u.checkpoints.contains f with
    | false => exact Or.inl ⟨.notConnected f, by simp [hcon], by simp [hcon]⟩
    | true =>
      cases hic : findInconsistent c u ho with
      | none =>
        exact Or.inr ⟨_, by simp [hcon]; rfl, by simp [hcon], fun f' hf' => by
          cases hf'; exact hasCp_iff.2 (OMap.contains_iff.1 hcon)⟩
      | some e => exact Or.inl ⟨e, by simp [hcon], by simp [hcon]⟩

/-- blocks after a changeset, before the oldest are dropped -/
theorem applyChangeset_cps (c : SparseChain P) (cs : ChangeSet P) :
    ∃ m : SparseChain P, c.applyChangeset cs = m.pruneCheckpoints ∧ m.checkpointLimit = c.checkpointLimit ∧
      ∀ h, m.checkpoints.get h = overlay cs.checkpoints c.checkpoints h :=
  ⟨_, rfl, rfl, fun h => foldl_applyCheckpoint cs.checkpoints _ h⟩

/-- the relation after both applied a changeset with the same changes of transactions -/
theorem sub_apply {l c : SparseChain P} (h : Sub l c) {ml mc : OMap Nat (Option BlockHash)} {txs : OMap Txid (Option P)}
    (hA : ∀ k x, overlay ml l.checkpoints k = some x → overlay mc c.checkpoints k = some x)
    (hB : ∀ k x, overlay mc c.checkpoints k = some x → (∀ j y, overlay mc c.checkpoints j = some y → j ≤ k) →
      overlay ml l.checkpoints k = some x)
    (hR : ∀ k x, overlay mc c.checkpoints k = some x → k ≤ u32Max) :
    Sub (l.applyChangeset ⟨ml, txs⟩) (c.applyChangeset ⟨mc, txs⟩) := by
  have hc : ∀ k, (c.applyChangeset ⟨mc, txs⟩).checkpoints.get k = overlay mc c.checkpoints k :=
    applyChangeset_cp c ⟨mc, txs⟩ h.unlimited
  obtain ⟨m, e, hlim, hm⟩ := applyChangeset_cps l ⟨ml, txs⟩
  have hl : ∀ k x, (l.applyChangeset ⟨ml, txs⟩).checkpoints.get k = some x → overlay ml l.checkpoints k = some x := by
    intro k x hx
    rw [e] at hx
    rw [← hm k]; exact prune_cp_sub m hx
  have htx : (l.applyChangeset ⟨ml, txs⟩).txidToPos = (c.applyChangeset ⟨mc, txs⟩).txidToPos ∧
      (l.applyChangeset ⟨ml, txs⟩).orderedTxids = (c.applyChangeset ⟨mc, txs⟩).orderedTxids := by
    unfold applyChangeset
    simp only []
    rw [(prune_tx _).1, (prune_tx _).2.1, (prune_tx _).1, (prune_tx _).2.1]
    simp only []
    rw [h.pos, h.ord]
    exact ⟨rfl, rfl⟩
  refine ⟨htx.1, htx.2, fun k x hx => by rw [hc]; exact hA k x (hl k x hx), ?_, fun k x hx => hR k x (by rw [← hc]; exact hx), ?_, ?_⟩
  · cases ht : (c.applyChangeset ⟨mc, txs⟩).latestCheckpoint with
    | none =>
      rw [latest_none] at ht ⊢
      intro k
      cases hx : (l.applyChangeset ⟨ml, txs⟩).checkpoints.get k with
      | none => rfl
      | some x => have hk := ht k; rw [hc, hA k x (hl k x hx)] at hk; cases hk
    | some b =>
      obtain ⟨g1, g2⟩ := latest_eq.1 ht
      have g3 : ∀ j y, overlay mc c.checkpoints j = some y → j ≤ b.height := fun j y hy => g2 j y (by rw [hc]; exact hy)
      have g4 := hB b.height b.hash (by rw [← hc]; exact g1) g3
      refine latest_eq.2 ⟨?_, fun k x hx => g3 k x (hA k x (hl k x hx))⟩
      rw [e]
      cases hn : m.checkpointLimit with
      | none => rw [prune_none m hn, hm]; exact g4
      | some n =>
        rw [prune_get hn]
        have h0 : cpsAbove m b.height = 0 := by
          unfold cpsAbove
          rw [List.length_eq_zero_iff, List.filter_eq_nil_iff]
          intro k hk
          obtain ⟨x, hx⟩ := OMap.mem_keys.1 hk
          have := g3 k x (hA k x (by rw [← hm]; exact hx))
          simp only [decide_eq_true_eq, not_lt]
          exact this
        have hpos : n ≠ 0 := fun h' => h.limit (by rw [← hlim, hn, h'])
        rw [if_pos (by omega), hm]
        exact g4
  · rw [applyChangeset_limit]; exact h.unlimited
  · rw [applyChangeset_limit]; exact h.limit

theorem overlay_merge (s u : SparseChain P) (m : OMap Nat (Option BlockHash)) (k : Nat) :
    overlay (u.checkpoints.entries.foldl (mergeCheckpoint s) m) s.checkpoints k =
      match u.checkpoints.get k with
      | some v => some v
      | none => overlay m s.checkpoints k := by
  unfold overlay
  rw [foldl_mergeCheckpoint]
  cases hu : u.checkpoints.get k with
  | none => rfl
  | some v =>
    simp only []
    by_cases hs : s.checkpoints.get k = some v
    · simp only [if_pos hs]; exact hs
    · simp only [if_neg hs]

theorem base_none (c u : SparseChain P) (k : Nat) (o : Option BlockHash) (h : (baseChangeset c u).checkpoints.get k = some o) :
    o = none ∧ ∃ f, invalidFrom c u = some f ∧ f ≤ k := by
  unfold baseChangeset at h
  cases hf : invalidFrom c u with
  | none => rw [hf] at h; cases h
  | some f =>
    rw [hf] at h
    unfold invalidateCheckpointsPreview at h
    simp only [OMap.get_mapVal, OMap.get_filter, Option.map_eq_some_iff] at h
    obtain ⟨x, hx, rfl⟩ := h
    have := Option.filter_eq_some_iff.1 hx
    exact ⟨rfl, f, rfl, by simpa using this.2⟩

/-- an accepted update within reach keeps the relation, whatever happens to the transactions -/
theorem sub_update {l c u : SparseChain P} (h : Sub l c) (hr : WithinReach l c u) (hu : ∀ k, HasCp u k → k ≤ u32Max)
    (hacc : ∀ f, invalidFrom c u = some f → HasCp u f) (txs : OMap Txid (Option P)) :
    Sub (l.applyChangeset ⟨u.checkpoints.entries.foldl (mergeCheckpoint l) (baseChangeset c u).checkpoints, txs⟩)
      (c.applyChangeset ⟨u.checkpoints.entries.foldl (mergeCheckpoint c) (baseChangeset c u).checkpoints, txs⟩) := by
  have hov : ∀ k x, overlay (baseChangeset c u).checkpoints l.checkpoints k = some x →
      overlay (baseChangeset c u).checkpoints c.checkpoints k = some x := by
    intro k x hx
    unfold overlay at hx ⊢
    cases hb : (baseChangeset c u).checkpoints.get k with
    | none => rw [hb] at hx; exact h.cps k x hx
    | some o => rw [hb] at hx; exact hx
  refine sub_apply h (fun k x hx => ?_) (fun k x hx htop => ?_) (fun k x hx => ?_)
  · rw [overlay_merge] at hx ⊢
    cases hk : u.checkpoints.get k with
    | none => rw [hk] at hx; exact hov k x hx
    | some v => rw [hk] at hx; exact hx
  · rw [overlay_merge] at hx ⊢
    cases hk : u.checkpoints.get k with
    | some v => rw [hk] at hx; exact hx
    | none =>
      rw [hk] at hx
      simp only at hx ⊢
      unfold overlay at hx ⊢
      cases hb : (baseChangeset c u).checkpoints.get k with
      | some o => rw [hb] at hx; exact hx
      | none =>
        rw [hb] at hx
        simp only at hx ⊢
        rcases hr with hn | he | ⟨h0, hag, hab⟩
        · have hnone : invalidFrom c u = none := by
            cases hf : invalidFrom c u with
            | none => rfl
            | some f => exact absurd (hacc f hf) (hn f)
          have hbe : ∀ j, (baseChangeset c u).checkpoints.get j = none := by
            intro j
            unfold baseChangeset; rw [hnone]; rfl
          have hue : ∀ j, u.checkpoints.get j = none := fun j => not_hasCp_iff.1 (hn j)
          have ht : c.latestCheckpoint = some ⟨k, x⟩ := latest_eq.2 ⟨hx, fun j y hy => htop j y (by
            rw [overlay_merge, hue j]
            simp only
            unfold overlay; rw [hbe j]; exact hy)⟩
          rw [← h.tip] at ht
          exact (latest_eq.1 ht).1
        · rw [cp_of_at (he k)]; exact hx
        · have hle : h0 ≤ k := by
            obtain ⟨y, hy, -⟩ := agree_iff.1 hag
            exact htop h0 y (by rw [overlay_merge, hy])
          rw [cp_of_at (hab k hle)]; exact hx
  · rw [overlay_merge] at hx
    cases hk : u.checkpoints.get k with
    | some v => exact hu k (hasCp_iff.2 ⟨v, hk⟩)
    | none =>
      rw [hk] at hx
      simp only at hx
      unfold overlay at hx
      cases hb : (baseChangeset c u).checkpoints.get k with
      | some o => rw [hb] at hx; rw [(base_none c u k o hb).1] at hx; cases hx
      | none => rw [hb] at hx; exact h.heights k x hx

/-- the tip is within reach -/
theorem tipUpdate_reach {l c : SparseChain P} (h : Sub l c) {u : SparseChain P}
    (hu : ∀ b, c.latestCheckpoint = some b → u.checkpoints.get b.height = some b.hash) : WithinReach l c u := by
  cases ht : c.latestCheckpoint with
  | none =>
    right; left
    intro k
    have h1 := latest_none.1 ht k
    have h2 := latest_none.1 (h.tip.trans ht) k
    unfold checkpointAt; rw [h1, h2]
  | some b =>
    right; right
    have hc := latest_eq.1 ht
    have hl := latest_eq.1 (h.tip.trans ht)
    refine ⟨b.height, agree_iff.2 ⟨b.hash, hu b ht, hl.1⟩, fun k hk => ?_⟩
    have : l.checkpoints.get k = c.checkpoints.get k := by
      rcases Nat.lt_or_eq_of_le hk with hlt | rfl
      · have h1 : c.checkpoints.get k = none := by
          cases hx : c.checkpoints.get k with
          | none => rfl
          | some y => have := hc.2 k y hx; omega
        have h2 : l.checkpoints.get k = none := by
          cases hx : l.checkpoints.get k with
          | none => rfl
          | some y => have := hl.2 k y hx; omega
        rw [h1, h2]
      · rw [hl.1, hc.1]
    unfold checkpointAt; rw [this]

theorem tipUpdate_same {l c : SparseChain P} (h : Sub l c) : l.tipUpdate = c.tipUpdate := by
  unfold tipUpdate; rw [h.tip]

/-- the two chains answer a preview alike: same failure, or changesets that differ in blocks only and keep the relation, also when the
changes of transactions are amended -/
def Alike {ε : Type} (l c : SparseChain P) (rl rc : Res ε (ChangeSet P)) : Prop :=
  (rl = .panic ∧ rc = .panic) ∨ (∃ e, rl = .err e ∧ rc = .err e) ∨
    ∃ ml mc txs, rl = .ok ⟨ml, txs⟩ ∧ rc = .ok ⟨mc, txs⟩ ∧
      ∀ txs' : OMap Txid (Option P), Sub (l.applyChangeset ⟨ml, txs'⟩) (c.applyChangeset ⟨mc, txs'⟩)

theorem determine_alike {l c u : SparseChain P} {ho : HashOrder (Txid × P)} (h : Sub l c) (hr : WithinReach l c u)
    (hu : ∀ k, HasCp u k → k ≤ u32Max) :
    (∃ e, l.determineChangeset u ho = .error e ∧ c.determineChangeset u ho = .error e) ∨
    ∃ ml mc txs, l.determineChangeset u ho = .ok ⟨ml, txs⟩ ∧ c.determineChangeset u ho = .ok ⟨mc, txs⟩ ∧
      ∀ txs' : OMap Txid (Option P), Sub (l.applyChangeset ⟨ml, txs'⟩) (c.applyChangeset ⟨mc, txs'⟩) := by
  rcases determine_same (ho := ho) h hr with he | ⟨txs, h1, h2, h3⟩
  · exact Or.inl he
  · exact Or.inr ⟨_, _, txs, h1, h2, fun txs' => sub_update h hr hu h3 txs'⟩

theorem tip_entry {l c : SparseChain P} (h : Sub l c) : l.checkpoints.last? = c.checkpoints.last? := by
  have := h.tip
  unfold latestCheckpoint at this
  cases h1 : l.checkpoints.last? with
  | none =>
    cases h2 : c.checkpoints.last? with
    | none => rfl
    | some y => rw [h1, h2] at this; cases this
  | some x =>
    cases h2 : c.checkpoints.last? with
    | none => rw [h1, h2] at this; cases this
    | some y =>
      rw [h1, h2] at this
      simp only [Option.map_some, Option.some.injEq, BlockId.mk.injEq] at this
      exact congrArg some (Prod.ext this.1 this.2)

theorem tip_get {c : SparseChain P} {b : BlockId} (h : c.latestCheckpoint = some b) :
    c.tipUpdate.checkpoints.get b.height = some b.hash := by
  unfold tipUpdate; rw [h]; simp only []; rw [OMap.get_insert, if_pos rfl]

theorem tip_cp {l c : SparseChain P} (h : Sub l c) {k : Nat} (hk : HasCp c.tipUpdate k) : k ≤ u32Max := by
  obtain ⟨x, hx⟩ := hasCp_iff.1 hk
  unfold tipUpdate at hx
  cases ht : c.latestCheckpoint with
  | none => rw [ht] at hx; cases hx
  | some b =>
    rw [ht] at hx
    simp only [OMap.get_insert] at hx
    split at hx
    · next e => rw [e]; exact h.heights _ _ (latest_eq.1 ht).1
    · cases hx

theorem insertTx_alike {l c : SparseChain P} (h : Sub l c) (txid : Txid) (pos : P) (ho : HashOrder (Txid × P)) :
    Alike l c (l.insertTxPreview txid pos ho) (c.insertTxPreview txid pos ho) := by
  unfold insertTxPreview
  rw [tipUpdate_same h, tip_entry h]
  have key := fun (u : SparseChain P) (hu : u.checkpoints = c.tipUpdate.checkpoints) =>
    determine_alike (u := u) (ho := ho) h (tipUpdate_reach h fun b hb => by rw [hu]; exact tip_get hb)
      (fun k hk => by
        obtain ⟨x, hx⟩ := hasCp_iff.1 hk
        rw [hu] at hx
        exact tip_cp h (hasCp_iff.2 ⟨x, hx⟩))
  have fin : ∀ u : SparseChain P, u.checkpoints = c.tipUpdate.checkpoints →
      Alike l c (match l.determineChangeset u ho with
        | .ok cs => .ok cs
        | .error (.notConnected _) => .panic
        | .error (.txInconsistent t o u) => .err (InsertTxError.txMovedUnexpectedly t o u))
      (match c.determineChangeset u ho with
        | .ok cs => .ok cs
        | .error (.notConnected _) => .panic
        | .error (.txInconsistent t o u) => .err (InsertTxError.txMovedUnexpectedly t o u)) := by
    intro u hu
    rcases key u hu with ⟨e, h1, h2⟩ | ⟨ml, mc, txs, h1, h2, h3⟩
    · rw [h1, h2]
      cases e with
      | notConnected _ => exact Or.inl ⟨rfl, rfl⟩
      | txInconsistent t a b => exact Or.inr (Or.inl ⟨_, rfl, rfl⟩)
    · rw [h1, h2]
      exact Or.inr (Or.inr ⟨ml, mc, txs, rfl, rfl, h3⟩)
  simp only []
  cases ChainPosition.height pos with
  | unconfirmed => exact fin _ rfl
  | confirmed t =>
    simp only []
    cases aboveTip t (Option.map Prod.fst c.checkpoints.last?) with
    | true => exact Or.inr (Or.inl ⟨_, rfl, rfl⟩)
    | false => exact fin _ rfl

theorem insertCheckpoint_alike {l c : SparseChain P} (h : Sub l c) (b : BlockId) (hb : b.height ≤ u32Max) (ho : HashOrder (Txid × P)) :
    Alike l c (l.insertCheckpointPreview b ho) (c.insertCheckpointPreview b ho) := by
  unfold insertCheckpointPreview
  rw [tipUpdate_same h]
  have fin : (∀ x, c.tipUpdate.checkpoints.get b.height = some x → x = b.hash) →
      Alike l c (match l.determineChangeset { c.tipUpdate with checkpoints := c.tipUpdate.checkpoints.insert b.height b.hash } ho with
        | .ok cs => .ok cs
        | .error (.notConnected _) => .panic
        | .error (.txInconsistent _ _ _) => (.panic : Res InsertCheckpointError (ChangeSet P)))
      (match c.determineChangeset { c.tipUpdate with checkpoints := c.tipUpdate.checkpoints.insert b.height b.hash } ho with
        | .ok cs => .ok cs
        | .error (.notConnected _) => .panic
        | .error (.txInconsistent _ _ _) => .panic) := by
    intro hmm
    have key := determine_alike (u := { c.tipUpdate with checkpoints := c.tipUpdate.checkpoints.insert b.height b.hash }) (ho := ho) h
      (tipUpdate_reach h fun b' hb' => by
        simp only [OMap.get_insert]
        split
        · next e => rw [hmm b'.hash (by rw [← e]; exact tip_get hb')]
        · exact tip_get hb')
      (fun k hk => by
        obtain ⟨x, hx⟩ := hasCp_iff.1 hk
        simp only [OMap.get_insert] at hx
        split at hx
        · next e => rw [e]; exact hb
        · exact tip_cp h (hasCp_iff.2 ⟨x, hx⟩))
    rcases key with ⟨e, h1, h2⟩ | ⟨ml, mc, txs, h1, h2, h3⟩
    · rw [h1, h2]
      cases e <;> exact Or.inl ⟨rfl, rfl⟩
    · rw [h1, h2]
      exact Or.inr (Or.inr ⟨ml, mc, txs, rfl, rfl, h3⟩)
  simp only []
  cases hg : c.tipUpdate.checkpoints.get b.height with
  | none => exact fin (fun x hx => by rw [hg] at hx; cases hx)
  | some x =>
    simp only []
    by_cases hx : x = b.hash
    · rw [if_neg (not_not.2 hx)]
      exact fin (fun y hy => by rw [hg] at hy; cases hy; exact hx)
    · rw [if_pos hx]
      exact Or.inr (Or.inl ⟨_, rfl, rfl⟩)

end Verif.SparseChain

namespace Verif.ChainGraph
open Verif Verif.Spec
variable {P T : Type} [LinearOrder P] [ChainPosition P] [LawfulChainPosition P] [LinearOrder T] [AsTransaction T]

/-- the same for chain graphs -/
def Alike {ε : Type} (l c : ChainGraph P T) (rl rc : Res ε (CGChangeSet P T)) : Prop :=
  (rl = .panic ∧ rc = .panic) ∨ (∃ e, rl = .err e ∧ rc = .err e) ∨
    ∃ ml mc txs g, rl = .ok ⟨⟨ml, txs⟩, g⟩ ∧ rc = .ok ⟨⟨mc, txs⟩, g⟩ ∧
      SparseChain.Sub (l.chain.applyChangeset ⟨ml, txs⟩) (c.chain.applyChangeset ⟨mc, txs⟩)

theorem conflicts_same {l c : ChainGraph P T} (hg : l.graph = c.graph) (h : SparseChain.Sub l.chain c.chain)
    {ml mc : OMap Nat (Option BlockHash)} {txs : OMap Txid (Option P)} {g : Additions T} (so : SpendOrder) (es : List (Txid × P)) :
    l.chainConflicts ⟨⟨ml, txs⟩, g⟩ so es = c.chainConflicts ⟨⟨mc, txs⟩, g⟩ so es := by
  have h1 : ∀ x, l.txConflictsInChain so x = c.txConflictsInChain so x := by
    intro x
    unfold txConflictsInChain conflictsIn SparseChain.inChainFilter SparseChain.txPosition
    rw [hg, h.pos]
  induction es with
  | nil => rfl
  | cons e es ih =>
    have h2 : l.fullTxOf ⟨⟨ml, txs⟩, g⟩ e.1 = c.fullTxOf ⟨⟨mc, txs⟩, g⟩ e.1 := by unfold fullTxOf; rw [hg]
    unfold chainConflicts
    rw [h2, ih]
    cases c.fullTxOf ⟨⟨mc, txs⟩, g⟩ e.1 with
    | none => rfl
    | some x =>
      simp only
      have h3 : l.conflictsOfNew so e x = c.conflictsOfNew so e x := by unfold conflictsOfNew; rw [h1]
      rw [h3]

theorem fix_alike {l c : ChainGraph P T} (hg : l.graph = c.graph) (h : SparseChain.Sub l.chain c.chain)
    {ml mc : OMap Nat (Option BlockHash)} {txs : OMap Txid (Option P)} (g : Additions T) (so : SpendOrder)
    (hs : ∀ txs' : OMap Txid (Option P), SparseChain.Sub (l.chain.applyChangeset ⟨ml, txs'⟩) (c.chain.applyChangeset ⟨mc, txs'⟩)) :
    Alike l c (l.fixConflicts ⟨⟨ml, txs⟩, g⟩ so) (c.fixConflicts ⟨⟨mc, txs⟩, g⟩ so) := by
  have hn : l.newTxids ⟨⟨ml, txs⟩, g⟩ = c.newTxids ⟨⟨mc, txs⟩, g⟩ := by
    unfold newTxids SparseChain.txPosition; rw [h.pos]
  unfold fixConflicts
  rw [hn, conflicts_same hg h (mc := mc)]
  cases c.chainConflicts ⟨⟨mc, txs⟩, g⟩ so (c.newTxids ⟨⟨mc, txs⟩, g⟩) with
  | none => exact Or.inl ⟨rfl, rfl⟩
  | some es =>
    simp only
    cases resolve es txs with
    | error e => exact Or.inr (Or.inl ⟨e, rfl, rfl⟩)
    | ok txs' => exact Or.inr (Or.inr ⟨ml, mc, txs', g, rfl, rfl, hs txs'⟩)

theorem determine_alike {l c : ChainGraph P T} (hg : l.graph = c.graph) (h : SparseChain.Sub l.chain c.chain) (u : ChainGraph P T)
    (o : Orders P T) (hr : WithinReach l.chain c.chain u.chain) (hu : ∀ k, HasCp u.chain k → k ≤ u32Max) :
    Alike l c (l.determineChangeset u o) (c.determineChangeset u o) := by
  unfold determineChangeset
  rcases SparseChain.determine_alike (ho := o.chain) h hr hu with ⟨e, h1, h2⟩ | ⟨ml, mc, txs, h1, h2, h3⟩
  · rw [h1, h2]; exact Or.inr (Or.inl ⟨_, rfl, rfl⟩)
  · rw [h1, h2]
    simp only
    rw [hg]
    rcases fix_alike hg h (c.graph.determineAdditions u.graph o.graph) o.spend h3 with ⟨k1, k2⟩ | ⟨e, k1, k2⟩ | ⟨a, b, t, g, k1, k2, k3⟩
    · rw [k1, k2]; exact Or.inl ⟨rfl, rfl⟩
    · rw [k1, k2]; exact Or.inr (Or.inl ⟨_, rfl, rfl⟩)
    · rw [k1, k2]; exact Or.inr (Or.inr ⟨a, b, t, g, rfl, rfl, k3⟩)

theorem insertTx_alike {l c : ChainGraph P T} (hg : l.graph = c.graph) (h : SparseChain.Sub l.chain c.chain) (x : T) (pos : P)
    (o : Orders P T) : Alike l c (l.insertTxPreview x pos o) (c.insertTxPreview x pos o) := by
  unfold insertTxPreview
  rcases SparseChain.insertTx_alike h (asTx x).txid pos o.chain with ⟨h1, h2⟩ | ⟨e, h1, h2⟩ | ⟨ml, mc, txs, h1, h2, h3⟩
  · rw [h1, h2]; exact Or.inl ⟨rfl, rfl⟩
  · rw [h1, h2]; exact Or.inr (Or.inl ⟨_, rfl, rfl⟩)
  · rw [h1, h2]
    simp only
    rw [hg]
    rcases fix_alike hg h (c.graph.insertTxPreview x) o.spend h3 with ⟨k1, k2⟩ | ⟨e, k1, k2⟩ | ⟨a, b, t, g, k1, k2, k3⟩
    · rw [k1, k2]; exact Or.inl ⟨rfl, rfl⟩
    · rw [k1, k2]; exact Or.inr (Or.inl ⟨_, rfl, rfl⟩)
    · rw [k1, k2]; exact Or.inr (Or.inr ⟨a, b, t, g, rfl, rfl, k3⟩)

theorem insertCheckpoint_alike {l c : ChainGraph P T} (h : SparseChain.Sub l.chain c.chain) (b : BlockId) (hb : b.height ≤ u32Max)
    (o : Orders P T) : Alike l c (l.insertCheckpointPreview b o) (c.insertCheckpointPreview b o) := by
  unfold insertCheckpointPreview
  rcases SparseChain.insertCheckpoint_alike h b hb o.chain with ⟨h1, h2⟩ | ⟨e, h1, h2⟩ | ⟨ml, mc, txs, h1, h2, h3⟩
  · rw [h1, h2]; exact Or.inl ⟨rfl, rfl⟩
  · rw [h1, h2]; exact Or.inr (Or.inl ⟨_, rfl, rfl⟩)
  · rw [h1, h2]; exact Or.inr (Or.inr ⟨ml, mc, txs, _, rfl, rfl, h3 txs⟩)

end Verif.ChainGraph
