import Verif.Lemmas.SparseChain

set_option linter.unusedSectionVars false

namespace Verif.SparseChain
open Verif Verif.Spec
variable {P : Type} [LinearOrder P] [ChainPosition P] [LawfulChainPosition P]

/-- the changeset part for checkpoints of a successful `determine_changeset` -/
theorem determine_ok_cp {c u : SparseChain P} {ho : HashOrder (Txid × P)} (hok : HeightsOk c)
    {cs : ChangeSet P} (h : c.determineChangeset u ho = .ok cs) (k : Nat) :
    (∀ v, u.checkpoints.get k = some v →
      cs.checkpoints.get k = if c.checkpoints.get k = some v then none else some (some v)) ∧
    (u.checkpoints.get k = none → Invalidated c u k →
      cs.checkpoints.get k = (c.checkpoints.get k).map (fun _ => none)) ∧
    (u.checkpoints.get k = none → ¬ Invalidated c u k → cs.checkpoints.get k = none) := by
  rcases determine_cases c u ho hok.1 with ⟨f, _, he⟩ | ⟨_, he⟩
  · rw [h] at he; cases he
  · rw [h] at he
    cases hi : findInconsistent c u ho with
    | some e => rw [hi] at he; cases he
    | none =>
      rw [hi] at he
      simp only [Except.ok.injEq] at he
      subst he
      simp only []
      rw [foldl_mergeCheckpoint]
      refine ⟨fun v hv => by rw [hv], fun hn hinv => ?_, fun hn hinv => ?_⟩
      · rw [hn]; simp only []
        obtain ⟨f, hf, hle⟩ := hinv
        unfold baseChangeset
        rw [(invalidFrom_some hok.1).2 hf]
        simp only [invalidatePreview_cp, if_pos hle]
      · rw [hn]; simp only []
        unfold baseChangeset
        cases hf : invalidFrom c u with
        | none => simp [ChangeSet.empty]
        | some f =>
          have hfi := (invalidFrom_some hok.1).1 hf
          simp only [invalidatePreview_cp]
          rw [if_neg]
          intro hle; exact hinv ⟨f, hfi, hle⟩

theorem determine_ok_tx {c u : SparseChain P} {ho : HashOrder (Txid × P)} (hok : HeightsOk c)
    (hc : Consistent c)
    {cs : ChangeSet P} (h : c.determineChangeset u ho = .ok cs) (t : Txid) :
    (∀ q, u.txidToPos.get t = some q →
      cs.txids.get t = if c.txidToPos.get t = some q then none else some (some q)) ∧
    (u.txidToPos.get t = none → c.txidToPos.get t = none → cs.txids.get t = none) ∧
    (∀ p, u.txidToPos.get t = none → c.txidToPos.get t = some p →
      (∃ k, ChainPosition.height p = .confirmed k ∧ Invalidated c u k) →
      cs.txids.get t = some (some (unconfirmedPos P))) ∧
    (∀ p, u.txidToPos.get t = none → c.txidToPos.get t = some p →
      (¬ ∃ k, ChainPosition.height p = .confirmed k ∧ Invalidated c u k) →
      cs.txids.get t = none) := by
  rcases determine_cases c u ho hok.1 with ⟨f, _, he⟩ | ⟨_, he⟩
  · rw [h] at he; cases he
  · rw [h] at he
    cases hi : findInconsistent c u ho with
    | some e => rw [hi] at he; cases he
    | none =>
      rw [hi] at he
      simp only [Except.ok.injEq] at he
      subst he
      simp only []
      rw [foldl_mergeTx]
      have hbase : u.txidToPos.get t = none → ∀ x, c.txidToPos.get t = x →
        ((baseChangeset c u).txids.get t = match x with
            | none => none
            | some p => match invalidFrom c u with
              | none => none
              | some f => if displaced f p then some (some (unconfirmedPos P)) else none) := by
        intro _ x hx
        unfold baseChangeset
        cases hf : invalidFrom c u with
        | none => cases x <;> simp [ChangeSet.empty]
        | some f =>
          simp only []
          rw [invalidatePreview_tx c hc, hx]
          cases x <;> rfl
      refine ⟨fun v hv => by rw [hv], fun hn hcn => ?_, fun p hn hp hinv => ?_, fun p hn hp hinv => ?_⟩
      · have := hbase hn _ hcn
        rw [hn]; simp only at this ⊢; exact this
      · have := hbase hn _ hp
        rw [hn]; simp only at this ⊢; rw [this]
        obtain ⟨k, hk, f, hf, hle⟩ := hinv
        rw [(invalidFrom_some hok.1).2 hf]
        simp [displaced, hk, hle]
      · have := hbase hn _ hp
        rw [hn]; simp only at this ⊢; rw [this]
        cases hf : invalidFrom c u with
        | none => rfl
        | some f =>
          have hfi := (invalidFrom_some hok.1).1 hf
          simp only [ite_eq_right_iff]
          intro hd
          unfold displaced at hd
          split at hd
          · next k hk => exact absurd ⟨k, hk, f, hfi, by simpa using hd⟩ hinv
          · cases hd

theorem determine_ok_iff {c u : SparseChain P} {ho : HashOrder (Txid × P)} (hok : HeightsOk c) :
    (∃ cs, c.determineChangeset u ho = .ok cs) ↔
      (∀ f, ¬ Disconnected c u f) ∧ ∀ t p q, ¬ MovesSettled c u t p q := by
  rcases determine_cases c u ho hok.1 with ⟨f, hd, he⟩ | ⟨hnd, he⟩
  · constructor
    · rintro ⟨cs, hcs⟩; rw [he] at hcs; cases hcs
    · rintro ⟨h, _⟩; exact absurd hd (h f)
  · rw [he]
    cases hi : findInconsistent c u ho with
    | some e =>
      obtain ⟨t, p, q, _, hm⟩ := findInconsistent_some hok hi
      constructor
      · rintro ⟨cs, hcs⟩; cases hcs
      · rintro ⟨_, h⟩; exact absurd hm (h t p q)
    | none =>
      have := (findInconsistent_none hok).1 hi
      exact ⟨fun _ => ⟨hnd, this⟩, fun _ => ⟨_, rfl⟩⟩

/-- maps of the state after an accepted update, without checkpoint limit -/
theorem applyUpdate_ok_maps {c u : SparseChain P} {ho : HashOrder (Txid × P)} (hok : HeightsOk c)
    (hc : Consistent c) (hl : c.checkpointLimit = none)
    {cs : ChangeSet P} (h : c.determineChangeset u ho = .ok cs) :
    (∀ k v, u.checkpoints.get k = some v → (c.applyChangeset cs).checkpoints.get k = some v) ∧
    (∀ k, u.checkpoints.get k = none → Invalidated c u k → (c.applyChangeset cs).checkpoints.get k = none) ∧
    (∀ k, u.checkpoints.get k = none → ¬ Invalidated c u k →
      (c.applyChangeset cs).checkpoints.get k = c.checkpoints.get k) := by
  refine ⟨fun k v hv => ?_, fun k hn hi => ?_, fun k hn hi => ?_⟩
  · rw [applyChangeset_cp c cs hl]; unfold overlay
    rw [(determine_ok_cp hok h k).1 v hv]
    by_cases he : c.checkpoints.get k = some v
    · rw [if_pos he]; simpa using he
    · rw [if_neg he]
  · rw [applyChangeset_cp c cs hl]; unfold overlay
    rw [(determine_ok_cp hok h k).2.1 hn hi]
    cases c.checkpoints.get k <;> rfl
  · rw [applyChangeset_cp c cs hl]; unfold overlay
    rw [(determine_ok_cp hok h k).2.2 hn hi]

theorem applyUpdate_ok_tx {c u : SparseChain P} {ho : HashOrder (Txid × P)} (hok : HeightsOk c)
    (hc : Consistent c)
    {cs : ChangeSet P} (h : c.determineChangeset u ho = .ok cs) :
    (∀ t q, u.txidToPos.get t = some q → (c.applyChangeset cs).txidToPos.get t = some q) ∧
    (∀ t, u.txidToPos.get t = none → c.txidToPos.get t = none → (c.applyChangeset cs).txidToPos.get t = none) ∧
    (∀ t p, u.txidToPos.get t = none → c.txidToPos.get t = some p →
      (∃ k, ChainPosition.height p = .confirmed k ∧ Invalidated c u k) →
      (c.applyChangeset cs).txidToPos.get t = some (unconfirmedPos P)) ∧
    (∀ t p, u.txidToPos.get t = none → c.txidToPos.get t = some p →
      (¬ ∃ k, ChainPosition.height p = .confirmed k ∧ Invalidated c u k) →
      (c.applyChangeset cs).txidToPos.get t = some p) := by
  refine ⟨fun t q hq => ?_, fun t hn hcn => ?_, fun t p hn hp hi => ?_, fun t p hn hp hi => ?_⟩
  · rw [applyChangeset_tx]; unfold overlay
    rw [(determine_ok_tx hok hc h t).1 q hq]
    by_cases he : c.txidToPos.get t = some q
    · rw [if_pos he]; simpa using he
    · rw [if_neg he]
  · rw [applyChangeset_tx]; unfold overlay
    rw [(determine_ok_tx hok hc h t).2.1 hn hcn]; exact hcn
  · rw [applyChangeset_tx]; unfold overlay
    rw [(determine_ok_tx hok hc h t).2.2.1 p hn hp hi]
  · rw [applyChangeset_tx]; unfold overlay
    rw [(determine_ok_tx hok hc h t).2.2.2 p hn hp hi]; exact hp

/-! ### pruning -/

omit [ChainPosition P] [LawfulChainPosition P] in
theorem desc_filter_length {r : List Nat} (hs : r.Pairwise (fun a b => b < a)) {i k : Nat} (h : r[i]? = some k) :
    (r.filter (fun x => decide (k < x))).length = i := by
  induction r generalizing i with
  | nil => simp at h
  | cons a r ih =>
    rw [List.pairwise_cons] at hs
    cases i with
    | zero =>
      simp at h; subst h
      simp only [List.filter_cons, lt_self_iff_false, decide_false, Bool.false_eq_true, if_false]
      rw [List.length_eq_zero_iff, List.filter_eq_nil_iff]
      intro x hx; have := hs.1 x hx; simp; omega
    | succ i =>
      simp at h
      have hlt : k < a := hs.1 k (List.mem_of_getElem? h)
      simp [List.filter_cons, hlt, ih hs.2 h]

theorem keys_reverse_desc (m : OMap Nat BlockHash) : m.keys.reverse.Pairwise (fun a b => b < a) := by
  rw [List.pairwise_reverse]; exact m.keys_sorted

theorem cpsAbove_eq (c : SparseChain P) (h : Nat) :
    cpsAbove c h = (c.checkpoints.keys.reverse.filter (fun x => decide (h < x))).length := by
  unfold cpsAbove; rw [List.filter_reverse, List.length_reverse]

theorem prune_get {c : SparseChain P} {n : Nat} (hl : c.checkpointLimit = some n) (h : Nat) :
    c.pruneCheckpoints.checkpoints.get h = if cpsAbove c h < n then c.checkpoints.get h else none := by
  have hd := keys_reverse_desc c.checkpoints
  have hkey : ∀ v, c.checkpoints.get h = some v → ∃ i, c.checkpoints.keys.reverse[i]? = some h ∧ cpsAbove c h = i := by
    intro v hv
    have hm : h ∈ c.checkpoints.keys.reverse := by rw [List.mem_reverse]; exact OMap.mem_keys.2 ⟨v, hv⟩
    obtain ⟨i, hi⟩ := List.getElem?_of_mem hm
    exact ⟨i, hi, by rw [cpsAbove_eq]; exact desc_filter_length hd hi⟩
  unfold pruneCheckpoints
  rw [hl]
  simp only []
  cases hr : c.checkpoints.keys.reverse[n]? with
  | none =>
    simp only []
    split
    · rfl
    · next hge =>
      cases hv : c.checkpoints.get h with
      | none => rfl
      | some v =>
        obtain ⟨i, hi, ha⟩ := hkey v hv
        rw [List.getElem?_eq_none_iff] at hr
        have := (List.getElem?_eq_some_iff.1 hi).1
        omega
  | some last =>
    simp only [OMap.get_filter]
    cases hv : c.checkpoints.get h with
    | none => simp
    | some v =>
      obtain ⟨i, hi, ha⟩ := hkey v hv
      have hlast := desc_filter_length hd hr
      simp only [Option.filter_some, decide_eq_true_eq]
      have : last + 1 ≤ h ↔ cpsAbove c h < n := by
        rw [ha]
        rw [List.pairwise_iff_getElem] at hd
        obtain ⟨hi1, hi2⟩ := List.getElem?_eq_some_iff.1 hi
        obtain ⟨hn1, hn2⟩ := List.getElem?_eq_some_iff.1 hr
        rcases Nat.lt_trichotomy i n with h1 | h1 | h1
        · have := hd i n hi1 hn1 h1
          omega
        · subst h1
          have : h = last := by rw [← hi2, ← hn2]
          omega
        · have := hd n i hn1 hi1 h1
          omega
      by_cases hc : cpsAbove c h < n
      · rw [if_pos (this.2 hc), if_pos hc]
      · rw [if_neg (fun hh => hc (this.1 hh)), if_neg hc]

theorem prune_size {c : SparseChain P} {n : Nat} (hl : c.checkpointLimit = some n) :
    c.pruneCheckpoints.checkpoints.size ≤ n := by
  have hd := keys_reverse_desc c.checkpoints
  unfold pruneCheckpoints
  rw [hl]
  simp only []
  cases hr : c.checkpoints.keys.reverse[n]? with
  | none =>
    simp only []
    rw [List.getElem?_eq_none_iff, List.length_reverse] at hr
    unfold OMap.size
    unfold OMap.keys at hr; rwa [List.length_map] at hr
  | some last =>
    simp only [OMap.size, OMap.filter]
    have hlast := desc_filter_length hd hr
    rw [List.filter_reverse, List.length_reverse] at hlast
    unfold OMap.keys at hlast
    rw [List.filter_map, List.length_map] at hlast
    have : ((fun x => decide (last < x)) ∘ Prod.fst : Nat × BlockHash → Bool) = (fun e => decide (last + 1 ≤ e.1)) := by
      funext e; simp [Nat.succ_le_iff]
    rw [this] at hlast
    omega

/-- at most `limit` checkpoints are held -/
def Limited (c : SparseChain P) : Prop := ∀ n, c.checkpointLimit = some n → c.checkpoints.size ≤ n

theorem prune_limited (c : SparseChain P) : Limited c.pruneCheckpoints := by
  intro n hn
  rw [(prune_tx c).2.2] at hn
  exact prune_size hn

theorem prune_of_limited {c : SparseChain P} (h : Limited c) : c.pruneCheckpoints = c := by
  unfold pruneCheckpoints
  cases hl : c.checkpointLimit with
  | none => rfl
  | some n =>
    have := h n hl
    simp only []
    have hr : c.checkpoints.keys.reverse[n]? = none := by
      rw [List.getElem?_eq_none_iff, List.length_reverse]
      unfold OMap.keys; rw [List.length_map]; exact this
    rw [hr]

theorem applyChangeset_limited (c : SparseChain P) (cs : ChangeSet P) : Limited (c.applyChangeset cs) :=
  prune_limited _

theorem step_limited (c : SparseChain P) (op : Op P) (h : Limited c) : Limited (c.step op) := by
  cases op with
  | applyUpdate u ho =>
    unfold step applyUpdate; simp only []
    split
    · exact h
    · exact applyChangeset_limited _ _
  | applyChangeset cs => exact applyChangeset_limited _ _
  | insertTx t p ho =>
    unfold step insertTx applyOk; simp only []
    split
    · exact applyChangeset_limited _ _
    · exact h
  | insertCheckpoint b ho =>
    unfold step insertCheckpoint applyOk; simp only []
    split
    · exact applyChangeset_limited _ _
    · exact h
  | invalidateCheckpoints f => exact applyChangeset_limited _ _
  | clearMempool => exact applyChangeset_limited _ _
  | setCheckpointLimit l => exact prune_limited _

theorem run_limited (c : SparseChain P) (ops : List (Op P)) (h : Limited c) : Limited (c.run ops) := by
  unfold run
  induction ops generalizing c with
  | nil => exact h
  | cons op ops ih => exact ih _ (step_limited c op h)

/-- the same chain with the limit removed -/
def unlimited (c : SparseChain P) : SparseChain P := { c with checkpointLimit := none }

theorem applyChangeset_unlimited (c : SparseChain P) (cs : ChangeSet P) :
    c.applyChangeset cs = ((unlimited c).applyChangeset cs).setCheckpointLimit c.checkpointLimit := by
  have : (unlimited c).applyChangeset cs = { c with
      checkpoints := cs.checkpoints.entries.foldl applyCheckpoint c.checkpoints
      txidToPos := (cs.txids.entries.foldl applyTx (c.txidToPos, c.orderedTxids)).1
      orderedTxids := (cs.txids.entries.foldl applyTx (c.txidToPos, c.orderedTxids)).2
      checkpointLimit := none } := by
    unfold applyChangeset unlimited
    exact prune_none _ rfl
  rw [this]; rfl

theorem determine_unlimited (c u : SparseChain P) (ho) :
    (unlimited c).determineChangeset u ho = c.determineChangeset u ho := rfl

/-! ### applying an empty changeset, rebuilding -/

theorem applyChangeset_empty {c : SparseChain P} (h : Limited c) : c.applyChangeset ChangeSet.empty = c := by
  unfold applyChangeset ChangeSet.empty OMap.empty
  simp only [List.foldl_nil]
  exact prune_of_limited h

theorem initialChangeset_tx {c : SparseChain P} (hc : Consistent c) (t : Txid) :
    c.initialChangeset.txids.get t = (c.txidToPos.get t).map some := by
  unfold initialChangeset
  simp only []
  have hp := positionsAgree_of_consistent hc
  cases ht : c.txidToPos.get t with
  | none =>
    apply OMap.get_ofList_none
    intro v hv
    rw [List.mem_map] at hv
    obtain ⟨⟨p, t'⟩, h1, h2⟩ := hv
    cases h2
    rw [hp.1] at h1
    unfold txPosition at h1; rw [ht] at h1; cases h1
  | some p =>
    apply OMap.get_ofList_of_fun
    · intro v' hv'
      rw [List.mem_map] at hv'
      obtain ⟨⟨p', t'⟩, h1, h2⟩ := hv'
      cases h2
      rw [hp.1] at h1
      unfold txPosition at h1; rw [ht] at h1; cases h1; rfl
    · rw [List.mem_map]
      exact ⟨(p, t), (hp.1 p t).2 ht, rfl⟩

theorem rebuild {c : SparseChain P} (hc : Consistent c) (hl : Limited c) :
    ({ SparseChain.empty with checkpointLimit := c.checkpointLimit } : SparseChain P).applyChangeset
      c.initialChangeset = c := by
  have hcp : ∀ h, (c.initialChangeset.checkpoints.entries.foldl applyCheckpoint OMap.empty).get h
      = c.checkpoints.get h := by
    intro h
    rw [foldl_applyCheckpoint]
    unfold overlay initialChangeset
    simp only [OMap.get_mapVal]
    cases c.checkpoints.get h <;> rfl
  have htx : ∀ t, (c.initialChangeset.txids.entries.foldl applyTx ((OMap.empty : OMap Txid P), OMap.empty)).1.get t
      = c.txidToPos.get t := by
    intro t
    rw [foldl_applyTx]
    unfold overlay
    rw [initialChangeset_tx hc]
    cases c.txidToPos.get t <;> rfl
  have key : ({
        checkpoints := c.initialChangeset.checkpoints.entries.foldl applyCheckpoint OMap.empty
        txidToPos := (c.initialChangeset.txids.entries.foldl applyTx (OMap.empty, OMap.empty)).1
        orderedTxids := (c.initialChangeset.txids.entries.foldl applyTx (OMap.empty, OMap.empty)).2
        checkpointLimit := c.checkpointLimit } : SparseChain P) = c := by
    refine ext_of_consistent ?_ hc hcp htx ?_
    rotate_left
    · rfl
    exact foldl_applyTx_ok _ ((OMap.empty : OMap Txid P), OMap.empty) (fun p t => by simp)
  unfold applyChangeset
  simp only [SparseChain.empty] at key ⊢
  rw [key]
  exact prune_of_limited hl

/-! ### insertion -/

theorem tipUpdate_get (c : SparseChain P) (h : Nat) :
    c.tipUpdate.checkpoints.get h = match c.checkpoints.last? with
      | some e => if h = e.1 then some e.2 else none
      | none => none := by
  unfold tipUpdate latestCheckpoint
  cases c.checkpoints.last? with
  | none => simp [SparseChain.empty]
  | some e => simp [OMap.get_insert]

theorem tipUpdate_tx (c : SparseChain P) : c.tipUpdate.txidToPos = OMap.empty := by
  unfold tipUpdate
  split <;> rfl

theorem tipUpdate_hasCp {c : SparseChain P} {h : Nat} (hh : HasCp c.tipUpdate h) :
    Agree c c.tipUpdate h := by
  rw [hasCp_iff] at hh
  obtain ⟨x, hx⟩ := hh
  rw [agree_iff]
  refine ⟨x, hx, ?_⟩
  rw [tipUpdate_get] at hx
  cases hl : c.checkpoints.last? with
  | none => rw [hl] at hx; cases hx
  | some e =>
    rw [hl] at hx
    simp only at hx
    split at hx
    · next he => subst he; cases hx; exact (OMap.last?_eq_some.1 hl).1
    · cases hx

/-- updates whose checkpoints all agree never diverge -/
theorem not_diverges_of_agree {c u : SparseChain P} (h : ∀ k, HasCp u k → Agree c u k) : ¬ Diverges c u := by
  rintro ⟨t, ht, hn⟩; exact hn (h t ht.1)

theorem not_firstInvalid_of_not_diverges {c u : SparseChain P} (h : ¬ Diverges c u) (f : Nat) :
    ¬ FirstInvalid c u f := fun hf => h hf.1

theorem hasCp_congr {a b : SparseChain P} (h : a.checkpoints = b.checkpoints) (k : Nat) : HasCp a k ↔ HasCp b k := by
  rw [hasCp_iff, hasCp_iff, h]

theorem agree_congr {c a b : SparseChain P} (h : a.checkpoints = b.checkpoints) (k : Nat) :
    Agree c a k ↔ Agree c b k := by
  rw [agree_iff, agree_iff, h]

end Verif.SparseChain
