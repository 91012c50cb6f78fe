import Verif.Lemmas.SparseChain3

/-!
# Properties C01–C16 (SparseChain)

Vocabulary (`Agree`, `Diverges`, `FirstInvalid`, `Disconnected`, `Invalidated`, `Settled`, `MovesSettled`,
`PositionsAgree`, `HeightsOk`, …) is in `Verif.Spec.SparseChain`.
`P` is any lawful chain position type (both implementations of the crate are lawful, C16).
-/

set_option linter.unusedSectionVars false

namespace Verif.Props
open Verif Verif.Spec Verif.SparseChain
variable {P : Type} [LinearOrder P] [ChainPosition P] [LawfulChainPosition P]

/-! ## A concrete chain and a concrete reorg update used as non-vacuity witnesses -/

/-- checkpoints 1, 5, 8; txs: #7 at height 3, #8 at height 8, #9 unconfirmed -/
def exChain : SparseChain TxHeight :=
  SparseChain.run SparseChain.empty
    [.insertCheckpoint ⟨1, 11⟩ (HashOrder.id _), .insertCheckpoint ⟨5, 15⟩ (HashOrder.id _),
     .insertCheckpoint ⟨8, 18⟩ (HashOrder.id _),
     .insertTx 7 (.confirmed 3) (HashOrder.id _), .insertTx 8 (.confirmed 8) (HashOrder.rev _),
     .insertTx 9 .unconfirmed (HashOrder.id _)]

/-- agrees at 5, replaces block 8, adds 9; confirms #9 at 9 -/
def exReorg : SparseChain TxHeight :=
  SparseChain.run (SparseChain.fromCheckpoints [⟨5, 15⟩, ⟨8, 28⟩, ⟨9, 29⟩])
    [.insertTx 9 (.confirmed 9) (HashOrder.id _)]

/-- skips block 8: does not connect -/
def exGap : SparseChain TxHeight := SparseChain.fromCheckpoints [⟨5, 15⟩, ⟨9, 29⟩]

theorem exChain_heightsOk : HeightsOk exChain := heightsOk_of_B (by decide)
theorem exReorg_heightsOk : HeightsOk exReorg := heightsOk_of_B (by decide)

/-! ## C01 -/

/-- **C01** An update is refused as not connected at `f` iff its tip is not a block we have, `f` is our lowest
block above everything both agree on, and the update says nothing about height `f`. -/
theorem C01_not_connected_iff (c u : SparseChain P) (ho : HashOrder (Txid × P)) (hok : HeightsOk c) (f : Nat) :
    (c.applyUpdate u ho).2 = .error (.notConnected f) ↔ Disconnected c u f := by
  have hd : (c.applyUpdate u ho).2 = c.determineChangeset u ho := by
    unfold applyUpdate; split <;> simp_all
  rw [hd]
  rcases determine_cases c u ho hok.1 with ⟨f', hdis, he⟩ | ⟨hnd, he⟩
  · rw [he]
    constructor
    · intro h; cases h; exact hdis
    · intro h
      have h1 := (invalidFrom_some hok.1).2 h.1
      have h2 := (invalidFrom_some hok.1).2 hdis.1
      rw [h1] at h2; cases h2; rfl
  · rw [he]
    constructor
    · intro h
      split at h
      · next e hi =>
        obtain ⟨t, p, q, rfl, _⟩ := findInconsistent_some hok hi
        cases h
      · cases h
    · intro h; exact absurd h (hnd f)

example : HeightsOk exChain ∧ (exChain.applyUpdate exGap (HashOrder.id _)).2 = .error (.notConnected 8) :=
  ⟨exChain_heightsOk, by decide⟩
example : ∃ cs, (exChain.applyUpdate exReorg (HashOrder.rev _)).2 = .ok cs := ⟨_, rfl⟩

/-- "Updating an empty sparsechain will always succeed" (module docs, sparse_chain.rs:24-33) -/
theorem C01_empty_accepts_all (u : SparseChain P) (ho : HashOrder (Txid × P)) :
    ∃ cs, (SparseChain.empty.applyUpdate u ho).2 = .ok cs := by
  have h := (determine_ok_iff (c := SparseChain.empty) (u := u) (ho := ho) empty_heightsOk).2
    (by
      refine ⟨fun f hf => ?_, fun t p q hm => ?_⟩
      · obtain ⟨b, hb⟩ := hf.1.2.1
        cases hb
      · cases hm.1)
  obtain ⟨cs, hcs⟩ := h
  exact ⟨cs, by unfold applyUpdate; rw [hcs]⟩

/-! ## C02 -/

/-- **C02** `TxInconsistent` is returned iff the update connects and moves some settled transaction. -/
theorem C02_inconsistent_iff (c u : SparseChain P) (ho : HashOrder (Txid × P)) (hok : HeightsOk c) :
    (∃ t p q, (c.applyUpdate u ho).2 = .error (.txInconsistent t p q)) ↔
      (∀ f, ¬ Disconnected c u f) ∧ ∃ t p q, MovesSettled c u t p q := by
  have hd : (c.applyUpdate u ho).2 = c.determineChangeset u ho := by
    unfold applyUpdate; split <;> simp_all
  rw [hd]
  rcases determine_cases c u ho hok.1 with ⟨f', hdis, he⟩ | ⟨hnd, he⟩
  · rw [he]
    constructor
    · rintro ⟨t, p, q, h⟩; cases h
    · rintro ⟨h, _⟩; exact absurd hdis (h f')
  · rw [he]
    constructor
    · rintro ⟨t, p, q, h⟩
      split at h
      · next e hi =>
        obtain ⟨t', p', q', _, hm⟩ := findInconsistent_some hok hi
        exact ⟨hnd, t', p', q', hm⟩
      · cases h
    · rintro ⟨_, t, p, q, hm⟩
      split
      · next e hi =>
        obtain ⟨t', p', q', rfl, hm'⟩ := findInconsistent_some hok hi
        exact ⟨t', p', q', rfl⟩
      · next hi => exact absurd hm ((findInconsistent_none hok).1 hi t p q)

/-- **C02** the transaction named in the error really is moved by the update although it is settled -/
theorem C02_reported_is_real (c u : SparseChain P) (ho : HashOrder (Txid × P)) (hok : HeightsOk c)
    (t : Txid) (p q : P) (h : (c.applyUpdate u ho).2 = .error (.txInconsistent t p q)) :
    MovesSettled c u t p q := by
  have hd : (c.applyUpdate u ho).2 = c.determineChangeset u ho := by
    unfold applyUpdate; split <;> simp_all
  rw [hd] at h
  rcases determine_cases c u ho hok.1 with ⟨f', hdis, he⟩ | ⟨hnd, he⟩
  · rw [he] at h; cases h
  · rw [he] at h
    split at h
    · next e hi =>
      obtain ⟨t', p', q', rfl, hm'⟩ := findInconsistent_some hok hi
      cases h; exact hm'
    · cases h

/-- **C02** an accepted update never moves a settled transaction: one that is confirmed at or below a block
both chains agree on, or any confirmed one when the update displaces nothing. -/
theorem C02_settled_kept (c u c' : SparseChain P) (ho : HashOrder (Txid × P)) (cs : ChangeSet P)
    (hok : HeightsOk c) (hc : PositionsAgree c) (h : c.applyUpdate u ho = (c', .ok cs))
    (t : Txid) (p : P) (k : Nat) (hp : c.txPosition t = some p) (hh : ChainPosition.height p = .confirmed k)
    (hs : Settled c u k) : c'.txPosition t = some p := by
  have hcon := consistent_of_positionsAgree hc
  unfold applyUpdate at h
  split at h
  · cases h
  · next cs' hd =>
    simp only [Prod.mk.injEq, Except.ok.injEq] at h
    obtain ⟨rfl, rfl⟩ := h
    have htx := applyUpdate_ok_tx hok hcon hd
    cases hut : u.txidToPos.get t with
    | some q =>
      have hm := ((determine_ok_iff hok).1 ⟨_, hd⟩).2 t p q
      have : p = q := by
        by_contra hne
        exact hm ⟨hp, hut, hne, k, hh, hs⟩
      subst this
      exact htx.1 t p hut
    | none =>
      apply htx.2.2.2 t p hut hp
      rintro ⟨k', hk', f, hf, hle⟩
      rw [hh] at hk'; cases hk'
      obtain ⟨a, ha, hka⟩ := hs hf.1
      have := hf.2.2.1 a ha
      omega

example : exChain.txPosition 7 = some (.confirmed 3) ∧
    (exChain.applyUpdate exReorg (HashOrder.id _)).1.txPosition 7 = some (.confirmed 3) ∧
    (exChain.applyUpdate exReorg (HashOrder.id _)).1.txPosition 8 = some .unconfirmed := by decide
example : Settled exChain exReorg 3 := fun _ => ⟨5, ⟨⟨5, 15⟩, by decide, by decide⟩, by decide⟩
/-- an update that tries to move #7, settled at height 3, to height 4 is refused -/
example : (exChain.applyUpdate
      (SparseChain.run (SparseChain.fromCheckpoints [⟨5, 15⟩, ⟨8, 28⟩]) [.insertTx 7 (.confirmed 4) (HashOrder.id _)])
      (HashOrder.id _)).2 = .error (.txInconsistent 7 (.confirmed 3) (.confirmed 4)) := by decide

/-- The module documentation (sparse_chain.rs:140-143) says: "Even with a reorg, an originally confirmed
transaction cannot be moved below the height of the reorg."  The code does not enforce this. -/
theorem C02_doc_move_below_reorg_not_enforced :
    ¬ ∀ (c u : SparseChain TxHeight) (ho : HashOrder (Txid × TxHeight)) (cs : ChangeSet TxHeight) (f : Nat),
      HeightsOk c → (c.applyUpdate u ho).2 = .ok cs → FirstInvalid c u f →
      ∀ t k k', c.txPosition t = some (.confirmed k) → f ≤ k → u.txPosition t = some (.confirmed k') → f ≤ k' := by
  intro h
  have := h exChain
    (SparseChain.run (SparseChain.fromCheckpoints [⟨5, 15⟩, ⟨8, 28⟩]) [.insertTx 8 (.confirmed 2) (HashOrder.id _)])
    (HashOrder.id _) _ 8 exChain_heightsOk rfl
    ((invalidFrom_some exChain_heightsOk.1).1 (by decide)) 8 8 2 (by decide) (by decide) (by decide)
  omega

/-! ## C03 -/

/-- **C03** (checkpoints) exact effect of an accepted update without checkpoint limit -/
theorem C03_checkpoints_after_update (c u c' : SparseChain P) (ho : HashOrder (Txid × P)) (cs : ChangeSet P)
    (hok : HeightsOk c) (hc : PositionsAgree c) (hl : c.checkpointLimit = none)
    (h : c.applyUpdate u ho = (c', .ok cs)) (k : Nat) :
    (HasCp u k → c'.checkpointAt k = u.checkpointAt k) ∧
    (¬ HasCp u k → Invalidated c u k → c'.checkpointAt k = none) ∧
    (¬ HasCp u k → ¬ Invalidated c u k → c'.checkpointAt k = c.checkpointAt k) := by
  have hcon := consistent_of_positionsAgree hc
  unfold applyUpdate at h
  split at h
  · cases h
  · next cs' hd =>
    simp only [Prod.mk.injEq, Except.ok.injEq] at h
    obtain ⟨rfl, rfl⟩ := h
    have hm := applyUpdate_ok_maps hok hcon hl hd
    refine ⟨fun hu => ?_, fun hu hi => ?_, fun hu hi => ?_⟩
    · obtain ⟨v, hv⟩ := hasCp_iff.1 hu
      unfold checkpointAt; rw [hm.1 k v hv, hv]
    · unfold checkpointAt; rw [hm.2.1 k (not_hasCp_iff.1 hu) hi]; rfl
    · unfold checkpointAt; rw [hm.2.2 k (not_hasCp_iff.1 hu) hi]

/-- **C03** (positions) exact effect of an accepted update, with or without checkpoint limit -/
theorem C03_positions_after_update (c u c' : SparseChain P) (ho : HashOrder (Txid × P)) (cs : ChangeSet P)
    (hok : HeightsOk c) (hc : PositionsAgree c)
    (h : c.applyUpdate u ho = (c', .ok cs)) (t : Txid) :
    (∀ q, u.txPosition t = some q → c'.txPosition t = some q) ∧
    (u.txPosition t = none → c.txPosition t = none → c'.txPosition t = none) ∧
    (∀ p, u.txPosition t = none → c.txPosition t = some p →
      (∃ k, ChainPosition.height p = .confirmed k ∧ Invalidated c u k) →
      c'.txPosition t = some (unconfirmedPos P)) ∧
    (∀ p, u.txPosition t = none → c.txPosition t = some p →
      (¬ ∃ k, ChainPosition.height p = .confirmed k ∧ Invalidated c u k) → c'.txPosition t = some p) := by
  have hcon := consistent_of_positionsAgree hc
  unfold applyUpdate at h
  split at h
  · cases h
  · next cs' hd =>
    simp only [Prod.mk.injEq, Except.ok.injEq] at h
    obtain ⟨rfl, rfl⟩ := h
    have htx := applyUpdate_ok_tx hok hcon hd
    exact ⟨htx.1 t, htx.2.1 t, htx.2.2.1 t, htx.2.2.2 t⟩

/-- transactions never disappear through an update -/
theorem C03_no_tx_lost (c u c' : SparseChain P) (ho : HashOrder (Txid × P)) (cs : ChangeSet P)
    (hok : HeightsOk c) (hc : PositionsAgree c) (h : c.applyUpdate u ho = (c', .ok cs)) (t : Txid)
    (ht : c.txPosition t ≠ none) : c'.txPosition t ≠ none := by
  have h3 := C03_positions_after_update c u c' ho cs hok hc h t
  cases hu : u.txPosition t with
  | some q => rw [h3.1 q hu]; simp
  | none =>
    cases hp : c.txPosition t with
    | none => exact absurd hp ht
    | some p =>
      by_cases hi : ∃ k, ChainPosition.height p = .confirmed k ∧ Invalidated c u k
      · rw [h3.2.2.1 p hu hp hi]; simp
      · rw [h3.2.2.2 p hu hp hi]; simp

example : exChain.checkpointLimit = none ∧
    (exChain.applyUpdate exReorg (HashOrder.id _)).1.checkpoints.entries = [(1, 11), (5, 15), (8, 28), (9, 29)] ∧
    (exChain.applyUpdate exReorg (HashOrder.id _)).1.txids =
      [(.confirmed 3, 7), (.confirmed 9, 9), (.unconfirmed, 8)] := by decide

/-! ## C04 -/

/-- **C04** `txids()` and `tx_position` agree after every history of calls, from the empty chain … -/
theorem C04_positions_agree (ops : List (Op P)) : PositionsAgree ((SparseChain.empty : SparseChain P).run ops) :=
  positionsAgree_of_consistent (run_consistent _ ops empty_consistent)

/-- … and from a chain made by `from_checkpoints`. -/
theorem C04_positions_agree_from_checkpoints (l : List BlockId) (ops : List (Op P)) :
    PositionsAgree ((SparseChain.fromCheckpoints l : SparseChain P).run ops) :=
  positionsAgree_of_consistent (run_consistent _ ops (fromCheckpoints_consistent l))

theorem exChain_positionsAgree : PositionsAgree exChain := C04_positions_agree _

example : exChain.txids = [(.confirmed 3, 7), (.confirmed 8, 8), (.unconfirmed, 9)] := by decide

/-! ## C05 -/

/-- **C05** a failing `apply_update` changes nothing; a successful one is preview followed by apply -/
theorem C05_apply_update (c u : SparseChain P) (ho : HashOrder (Txid × P)) :
    (∀ e, (c.applyUpdate u ho).2 = .error e → (c.applyUpdate u ho).1 = c) ∧
    (∀ cs, (c.applyUpdate u ho).2 = .ok cs →
      c.determineChangeset u ho = .ok cs ∧ (c.applyUpdate u ho).1 = c.applyChangeset cs) := by
  unfold applyUpdate
  cases c.determineChangeset u ho with
  | error e => simp
  | ok cs => simp

/-- **C05** `insert_tx` and `insert_checkpoint` -/
theorem C05_insert (c : SparseChain P) (t : Txid) (p : P) (b : BlockId) (ho : HashOrder (Txid × P)) :
    ((∀ cs, (c.insertTx t p ho).2 ≠ .ok cs) → (c.insertTx t p ho).1 = c) ∧
    (∀ cs, c.insertTxPreview t p ho = .ok cs →
      (c.insertTx t p ho) = (c.applyChangeset cs, .ok cs)) ∧
    ((∀ cs, (c.insertCheckpoint b ho).2 ≠ .ok cs) → (c.insertCheckpoint b ho).1 = c) ∧
    (∀ cs, c.insertCheckpointPreview b ho = .ok cs →
      (c.insertCheckpoint b ho) = (c.applyChangeset cs, .ok cs)) := by
  unfold insertTx insertCheckpoint applyOk
  refine ⟨?_, ?_, ?_, ?_⟩
  · cases c.insertTxPreview t p ho <;> simp
  · intro cs h; rw [h]
  · cases c.insertCheckpointPreview b ho <;> simp
  · intro cs h; rw [h]

/-- **C05** the direct call returns what the preview returns, and changes the chain only by applying it; `invalidate_checkpoints` and
`clear_mempool`, which cannot fail, likewise -/
theorem C05_preview (c u : SparseChain P) (t : Txid) (p : P) (b : BlockId) (h : Nat) (ho : HashOrder (Txid × P)) :
    (c.applyUpdate u ho).2 = c.determineChangeset u ho ∧
    (c.insertTx t p ho).2 = c.insertTxPreview t p ho ∧
    (c.insertCheckpoint b ho).2 = c.insertCheckpointPreview b ho ∧
    c.invalidateCheckpoints h = (c.applyChangeset (c.invalidateCheckpointsPreview h), c.invalidateCheckpointsPreview h) ∧
    c.clearMempool = (c.applyChangeset c.clearMempoolPreview, c.clearMempoolPreview) := by
  refine ⟨?_, ?_, ?_, rfl, rfl⟩
  · unfold applyUpdate; cases c.determineChangeset u ho <;> rfl
  · unfold insertTx applyOk; cases c.insertTxPreview t p ho <;> rfl
  · unfold insertCheckpoint applyOk; cases c.insertCheckpointPreview b ho <;> rfl

/-! ## C06 -/

/-- **C06** applying an accepted update a second time succeeds, reports no change and changes nothing -/
theorem C06_update_idempotent (c u c' : SparseChain P) (ho ho' : HashOrder (Txid × P)) (cs : ChangeSet P)
    (hok : HeightsOk c) (hu : HeightsOk u) (hc : PositionsAgree c) (hl : c.checkpointLimit = none)
    (h : c.applyUpdate u ho = (c', .ok cs)) :
    c'.applyUpdate u ho' = (c', .ok ChangeSet.empty) := by
  have hcon := consistent_of_positionsAgree hc
  have hcp := C03_checkpoints_after_update c u c' ho cs hok hc hl h
  have htx := C03_positions_after_update c u c' ho cs hok hc h
  have hc'def : c' = (c.step (.applyUpdate u ho)) := by
    show c' = (c.applyUpdate u ho).1
    rw [h]
  have hok' : HeightsOk c' := by rw [hc'def]; exact step_heightsOk hok hcon _ hu
  have hcon' : Consistent c' := by rw [hc'def]; exact step_consistent c _ hcon
  have hl' : c'.checkpointLimit = none := by
    have := h
    unfold applyUpdate at this
    split at this
    · cases this
    · simp only [Prod.mk.injEq] at this; rw [← this.1, applyChangeset_limit]; exact hl
  have hnd : ¬ Diverges c' u := not_diverges_of_agree (fun k hk => by
    have := (hcp k).1 hk
    obtain ⟨b, hb⟩ := hk
    exact ⟨b, by rw [this, hb], hb⟩)
  have hinv : ∀ k, ¬ Invalidated c' u k := fun k ⟨f, hf, _⟩ => hnd hf.1
  obtain ⟨cs', hcs'⟩ := (determine_ok_iff (u := u) (ho := ho') hok').2
    ⟨fun f hf => hnd hf.1.1, fun t p q hm => hm.2.2.1 (by
      have := (htx t).1 q hm.2.1; rw [hm.1] at this; cases this; rfl)⟩
  have hempty : cs' = ChangeSet.empty := by
    have h1 : cs'.checkpoints = OMap.empty := OMap.eq_empty_iff.2 (fun k => by
      have hd := determine_ok_cp hok' hcs' k
      cases hk : u.checkpoints.get k with
      | none => exact hd.2.2 hk (hinv k)
      | some v =>
        rw [hd.1 v hk, if_pos]
        have := (hcp k).1 (hasCp_iff.2 ⟨v, hk⟩)
        unfold checkpointAt at this; rw [hk] at this
        cases hc' : c'.checkpoints.get k with
        | none => rw [hc'] at this; cases this
        | some w => rw [hc'] at this; simp at this; rw [this])
    have h2 : cs'.txids = OMap.empty := OMap.eq_empty_iff.2 (fun t => by
      have hd := determine_ok_tx hok' hcon' hcs' t
      cases ht : u.txidToPos.get t with
      | some q =>
        have hq : c'.txidToPos.get t = some q := (htx t).1 q ht
        rw [hd.1 q ht, if_pos hq]
      | none =>
        cases hp : c'.txidToPos.get t with
        | none => exact hd.2.1 ht hp
        | some p => exact hd.2.2.2 p ht hp (fun ⟨k, _, hk⟩ => hinv k hk))
    cases cs'; simp only at h1 h2; subst h1; subst h2; rfl
  subst hempty
  unfold applyUpdate
  rw [hcs']
  simp only
  rw [applyChangeset_empty (by intro n hn; rw [hl'] at hn; cases hn)]

example : let r := exChain.applyUpdate exReorg (HashOrder.id _)
    r.2 ≠ .ok ChangeSet.empty ∧ r.1 ≠ exChain ∧ r.1.applyUpdate exReorg (HashOrder.rev _) = (r.1, .ok ChangeSet.empty) := by
  decide

/-! ## C07 -/

theorem overlay_append {K V : Type} [LinearOrder K] (a b : OMap K (Option V)) (m m' : OMap K V)
    (hm : ∀ k, m'.get k = overlay a m k) (k : K) : overlay (a.append b) m k = overlay b m' k := by
  unfold overlay at *
  rw [OMap.get_append]
  cases b.get k with
  | some o => simp
  | none => simp [hm]

/-- **C07** applying `a.append(b)` is applying `a` and then `b` (no checkpoint limit) -/
theorem C07_append_is_sequential (c : SparseChain P) (a b : ChangeSet P) (hc : PositionsAgree c)
    (hl : c.checkpointLimit = none) :
    c.applyChangeset (a.append b) = (c.applyChangeset a).applyChangeset b := by
  have hcon := consistent_of_positionsAgree hc
  apply ext_of_consistent (applyChangeset_consistent _ _ hcon)
    (applyChangeset_consistent _ _ (applyChangeset_consistent _ _ hcon))
  · intro h
    rw [applyChangeset_cp c _ hl, applyChangeset_cp _ _ (by rw [applyChangeset_limit]; exact hl)]
    exact overlay_append _ _ _ _ (applyChangeset_cp c a hl) h
  · intro t
    rw [applyChangeset_tx, applyChangeset_tx]
    exact overlay_append _ _ _ _ (applyChangeset_tx c a) t
  · simp only [applyChangeset_limit]

/-- **C07** for any number of changesets -/
theorem C07_append_all_is_sequential (c : SparseChain P) (l : List (ChangeSet P)) (hc : PositionsAgree c)
    (hl : c.checkpointLimit = none) :
    c.applyChangeset (l.foldl ChangeSet.append ChangeSet.empty) = l.foldl applyChangeset c := by
  have gen : ∀ (l : List (ChangeSet P)) (a : ChangeSet P),
      c.applyChangeset (l.foldl ChangeSet.append a) = l.foldl applyChangeset (c.applyChangeset a) := by
    intro l
    induction l with
    | nil => intro a; rfl
    | cons x l ih =>
      intro a
      simp only [List.foldl_cons]
      rw [ih, C07_append_is_sequential c a x hc hl]
  rw [gen, applyChangeset_empty (by intro n hn; rw [hl] at hn; cases hn)]

/-- With a checkpoint limit the documented law of `ChangeSet::append` (sparse_chain.rs:919-920) fails. -/
theorem C07_append_with_limit_fails :
    ¬ ∀ (c : SparseChain TxHeight) (a b : ChangeSet TxHeight), PositionsAgree c →
      c.applyChangeset (a.append b) = (c.applyChangeset a).applyChangeset b := by
  intro h
  have := h ((SparseChain.empty : SparseChain TxHeight).run
      [.insertCheckpoint ⟨1, 11⟩ (HashOrder.id _), .setCheckpointLimit (some 1)])
    ⟨OMap.empty.insert 2 (some 12), OMap.empty⟩ ⟨OMap.empty.insert 2 none, OMap.empty⟩ (C04_positions_agree _)
  revert this; decide

/-! ## C08 -/

/-- **C08** every reachable chain is rebuilt exactly by its `initial_changeset` -/
theorem C08_initial_changeset_rebuilds (ops : List (Op P)) :
    let c := (SparseChain.empty : SparseChain P).run ops
    ((SparseChain.empty : SparseChain P).setCheckpointLimit c.checkpointLimit).applyChangeset c.initialChangeset = c := by
  intro c
  have h : (SparseChain.empty : SparseChain P).setCheckpointLimit c.checkpointLimit =
      { SparseChain.empty with checkpointLimit := c.checkpointLimit } := by
    unfold setCheckpointLimit
    apply prune_of_limited
    intro n _; exact Nat.zero_le _
  rw [h]
  exact rebuild (run_consistent _ ops empty_consistent)
    (run_limited _ ops (by intro n hn; cases hn))

theorem step_eq_apply_log (c : SparseChain P) (op : Op P) (hl : Limited c)
    (hop : ∀ l, op ≠ .setCheckpointLimit l) : c.step op = c.applyChangeset (c.stepLog op) := by
  have he := applyChangeset_empty hl
  cases op with
  | applyUpdate u ho =>
    simp only [step, stepLog, applyUpdate]
    cases c.determineChangeset u ho with
    | error e => exact he.symm
    | ok cs => rfl
  | applyChangeset cs => rfl
  | insertTx t p ho =>
    simp only [step, stepLog, insertTx]
    cases c.insertTxPreview t p ho with
    | err e => exact he.symm
    | panic => exact he.symm
    | ok cs => rfl
  | insertCheckpoint b ho =>
    simp only [step, stepLog, insertCheckpoint]
    cases c.insertCheckpointPreview b ho with
    | err e => exact he.symm
    | panic => exact he.symm
    | ok cs => rfl
  | invalidateCheckpoints f => rfl
  | clearMempool => rfl
  | setCheckpointLimit l => exact absurd rfl (hop l)

/-- **C08** replaying the reported changesets one by one reproduces the state, even with a fixed limit -/
theorem C08_replay_log (c : SparseChain P) (ops : List (Op P)) (hl : Limited c)
    (hops : ∀ op ∈ ops, ∀ l, op ≠ .setCheckpointLimit l) :
    (c.runLog ops).foldl applyChangeset c = c.run ops := by
  induction ops generalizing c with
  | nil => rfl
  | cons op ops ih =>
    simp only [runLog, run, List.foldl_cons]
    rw [← step_eq_apply_log c op hl (hops op (by simp))]
    exact ih _ (step_limited c op hl) (fun o ho => hops o (by simp [ho]))

/-- **C08** replaying the aggregate of the reported changesets on an empty chain reproduces the state (no limit) -/
theorem C08_replay_aggregate (ops : List (Op P)) (hops : ∀ op ∈ ops, ∀ l, op ≠ .setCheckpointLimit l) :
    (SparseChain.empty : SparseChain P).applyChangeset
      ((SparseChain.empty.runLog ops).foldl ChangeSet.append ChangeSet.empty) = SparseChain.empty.run ops := by
  have hpa : PositionsAgree (SparseChain.empty : SparseChain P) := C04_positions_agree []
  rw [C07_append_all_is_sequential _ _ hpa rfl]
  exact C08_replay_log _ ops (by intro n hn; cases hn) hops

example : exChain ≠ SparseChain.empty ∧
    (SparseChain.empty.setCheckpointLimit none).applyChangeset exChain.initialChangeset = exChain := by decide

/-! ## C09 -/

/-- **C09** `invalidate_checkpoints(f)` removes exactly the checkpoints at or above `f` (no limit) and unconfirms
exactly the transactions confirmed at or above `f`; nothing else changes. -/
theorem C09_invalidate (c : SparseChain P) (hc : PositionsAgree c) (hl : c.checkpointLimit = none) (f : Nat) :
    let c' := (c.invalidateCheckpoints f).1
    (∀ h, c'.checkpointAt h = if h < f then c.checkpointAt h else none) ∧
    (∀ t, c.txPosition t = none → c'.txPosition t = none) ∧
    (∀ t p h, c.txPosition t = some p → ChainPosition.height p = .confirmed h → f ≤ h →
      c'.txPosition t = some (unconfirmedPos P)) ∧
    (∀ t p, c.txPosition t = some p → (∀ h, ChainPosition.height p = .confirmed h → h < f) →
      c'.txPosition t = some p) := by
  intro c'
  have hcon := consistent_of_positionsAgree hc
  have htx : ∀ t, c'.txidToPos.get t = overlay (c.invalidateCheckpointsPreview f).txids c.txidToPos t :=
    applyChangeset_tx c _
  refine ⟨fun h => ?_, fun t ht => ?_, fun t p h hp hh hle => ?_, fun t p hp hh => ?_⟩
  · unfold checkpointAt
    have : c'.checkpoints.get h = overlay (c.invalidateCheckpointsPreview f).checkpoints c.checkpoints h :=
      applyChangeset_cp c _ hl h
    rw [this]; unfold overlay
    rw [invalidatePreview_cp]
    by_cases hlt : h < f
    · rw [if_pos hlt, if_neg (by omega)]
    · rw [if_neg hlt, if_pos (by omega)]
      cases c.checkpoints.get h <;> rfl
  · unfold txPosition at *
    rw [htx]; unfold overlay; rw [invalidatePreview_tx c hcon, ht]
  · unfold txPosition at *
    rw [htx]; unfold overlay; rw [invalidatePreview_tx c hcon, hp]
    simp [displaced, hh, hle, unconfirmedPos]
  · unfold txPosition at *
    rw [htx]; unfold overlay; rw [invalidatePreview_tx c hcon, hp]
    have : displaced f p = false := by
      unfold displaced
      split
      · next h hh' => have := hh h hh'; simp; omega
      · rfl
    simp [this]

/-- the BTree ranges used by `invalidate_checkpoints_preview` never panic -/
theorem C09_invalidate_range_ok (f : Nat) :
    Bound.rangePanics (heightLo (P := P) (.included (.confirmed f))) (heightHi (.excluded .unconfirmed)) = false := by
  unfold heightLo heightHi mapHeightBound ordIt
  simp only [Bound.rangePanics, decide_eq_false_iff_not, not_lt]
  apply le_of_lt
  rw [Prod.Lex.toLex_lt_toLex]
  left
  apply height_lt_of_lt
  rw [LawfulChainPosition.height_min, LawfulChainPosition.height_min]
  simp

example : ((exChain.invalidateCheckpoints 5).1.checkpoints.entries = [(1, 11)]) ∧
    (exChain.invalidateCheckpoints 5).1.txids = [(.confirmed 3, 7), (.unconfirmed, 8), (.unconfirmed, 9)] := by decide

/-! ## C10 -/

/-- **C10** `clear_mempool` removes exactly the unconfirmed transactions -/
theorem C10_clear_mempool (c : SparseChain P) (hc : PositionsAgree c) (hlim : Limited c) :
    let c' := c.clearMempool.1
    (∀ h, c'.checkpointAt h = c.checkpointAt h) ∧
    (∀ t, c'.txPosition t = (c.txPosition t).filter (fun p => decide (ChainPosition.height p ≠ .unconfirmed))) := by
  intro c'
  have hcon := consistent_of_positionsAgree hc
  constructor
  · intro h
    have hraw : (rawApply c c.clearMempoolPreview).checkpoints = c.checkpoints := by
      apply OMap.ext_get; intro k
      rw [rawApply_cp]; unfold overlay clearMempoolPreview; simp
    have : c'.checkpoints = c.checkpoints := by
      show (c.applyChangeset c.clearMempoolPreview).checkpoints = _
      rw [applyChangeset_raw, prune_of_limited, hraw]
      intro n hn; rw [hraw]; exact hlim n hn
    unfold checkpointAt; rw [this]
  · intro t
    have htx : c'.txidToPos.get t = overlay c.clearMempoolPreview.txids c.txidToPos t := applyChangeset_tx c _ t
    unfold txPosition
    rw [htx]; unfold overlay; rw [clearPreview_tx c hcon]
    cases hp : c.txidToPos.get t with
    | none => rfl
    | some p =>
      simp only [Option.filter_some, decide_eq_true_eq]
      by_cases hu : ChainPosition.height p = .unconfirmed
      · simp [hu]
      · simp [hu]

example : exChain.clearMempool.1.txids = [(.confirmed 3, 7), (.confirmed 8, 8)] := by decide

/-! ## C11 -/

/-- **C11** at most `n` checkpoints while limit `n` is set, after every history -/
theorem C11_limit_respected (ops : List (Op P)) (n : Nat)
    (h : ((SparseChain.empty : SparseChain P).run ops).checkpointLimit = some n) :
    ((SparseChain.empty : SparseChain P).run ops).checkpoints.size ≤ n :=
  run_limited _ ops (by intro n hn; cases hn) n h

/-- **C11** setting the limit keeps a block iff fewer than `n` known blocks are above it; transactions stay -/
theorem C11_set_limit_keeps_newest (c : SparseChain P) (n : Nat) :
    let c' := c.setCheckpointLimit (some n)
    (∀ h, c'.checkpointAt h = if cpsAbove c h < n then c.checkpointAt h else none) ∧
    (∀ t, c'.txPosition t = c.txPosition t) ∧ c'.txids = c.txids := by
  intro c'
  have hp := prune_tx ({ c with checkpointLimit := some n } : SparseChain P)
  refine ⟨fun h => ?_, fun t => ?_, ?_⟩
  · unfold checkpointAt
    have : c'.checkpoints.get h = if cpsAbove c h < n then c.checkpoints.get h else none :=
      prune_get (c := { c with checkpointLimit := some n }) rfl h
    rw [this]
    split <;> rfl
  · show c'.txidToPos.get t = _
    have : c'.txidToPos = c.txidToPos := hp.1
    rw [this]; rfl
  · unfold SparseChain.txids
    have : c'.orderedTxids = c.orderedTxids := hp.2.1
    rw [this]

/-- **C11** every operation on a limited chain is the same operation on the unlimited chain followed by keeping
the newest blocks -/
theorem C11_op_then_prune (c : SparseChain P) (op : Op P) (hl : Limited c)
    (hop : ∀ l, op ≠ .setCheckpointLimit l) :
    c.step op = ((unlimited c).step op).setCheckpointLimit c.checkpointLimit := by
  have hself : c = (unlimited c).setCheckpointLimit c.checkpointLimit := by
    have : (unlimited c).setCheckpointLimit c.checkpointLimit = c.pruneCheckpoints := rfl
    rw [this, prune_of_limited hl]
  have hlu : Limited (unlimited c) := by intro n hn; cases hn
  have hlog : (unlimited c).stepLog op = c.stepLog op := by
    cases op with
    | applyUpdate u ho =>
      simp only [stepLog, applyUpdate]
      rw [determine_unlimited]
      cases c.determineChangeset u ho <;> rfl
    | applyChangeset cs => rfl
    | insertTx t p ho =>
      simp only [stepLog, insertTx]
      have : (unlimited c).insertTxPreview t p ho = c.insertTxPreview t p ho := rfl
      rw [this]
      cases c.insertTxPreview t p ho <;> rfl
    | insertCheckpoint b ho =>
      simp only [stepLog, insertCheckpoint]
      have : (unlimited c).insertCheckpointPreview b ho = c.insertCheckpointPreview b ho := rfl
      rw [this]
      cases c.insertCheckpointPreview b ho <;> rfl
    | invalidateCheckpoints f => rfl
    | clearMempool => rfl
    | setCheckpointLimit l => exact absurd rfl (hop l)
  rw [step_eq_apply_log c op hl hop, step_eq_apply_log _ op hlu hop, hlog]
  exact applyChangeset_unlimited c _

example : (exChain.setCheckpointLimit (some 2)).checkpoints.entries = [(5, 15), (8, 18)] ∧
    ((exChain.setCheckpointLimit (some 2)).step (.applyUpdate exReorg (HashOrder.id _))).checkpoints.entries =
      [(8, 28), (9, 29)] := by decide

/-! ## C12 -/

/-- the update built by `insert_tx` never diverges from the chain -/
theorem insertTx_not_diverges (c : SparseChain P) (t : Txid) (p : P) (o : OSet (P ×ₗ Txid)) :
    ¬ Diverges c { c.tipUpdate with txidToPos := c.tipUpdate.txidToPos.insert t p, orderedTxids := o } :=
  not_diverges_of_agree (fun k hk => by
    have h1 : HasCp c.tipUpdate k := hk
    exact tipUpdate_hasCp h1)

/-- the position is confirmed above the tip (or there is no tip) -/
def TooHigh (c : SparseChain P) (p : P) : Prop :=
  ∃ h, ChainPosition.height p = .confirmed h ∧ ∀ tip, IsTip c tip → tip < h

/-- the txid is already confirmed somewhere else -/
def ConfirmedElsewhere (c : SparseChain P) (t : Txid) (p : P) : Prop :=
  ∃ o h, c.txPosition t = some o ∧ o ≠ p ∧ ChainPosition.height o = .confirmed h

theorem insertTxPreview_cases (c : SparseChain P) (hok : HeightsOk c) (hc : Consistent c) (t : Txid) (p : P)
    (ho : HashOrder (Txid × P)) :
    (TooHigh c p ∧ ∃ h, ChainPosition.height p = .confirmed h ∧
      c.insertTxPreview t p ho = .err (.txTooHigh t h (c.latestCheckpoint.map BlockId.height))) ∨
    (¬ TooHigh c p ∧ ∃ o h, c.txPosition t = some o ∧ o ≠ p ∧ ChainPosition.height o = .confirmed h ∧
      c.insertTxPreview t p ho = .err (.txMovedUnexpectedly t o p)) ∨
    (¬ TooHigh c p ∧ ¬ ConfirmedElsewhere c t p ∧ ∃ cs, c.insertTxPreview t p ho = .ok cs ∧
      cs.checkpoints = OMap.empty ∧
      ∀ t', cs.txids.get t' = if t' = t then (if c.txPosition t = some p then none else some (some p)) else none) := by
  have htip : c.checkpoints.last?.map Prod.fst = c.latestCheckpoint.map BlockId.height := by
    unfold latestCheckpoint; cases c.checkpoints.last? <;> rfl
  by_cases hth : TooHigh c p
  · left
    refine ⟨hth, ?_⟩
    obtain ⟨h, hh, ht⟩ := hth
    refine ⟨h, hh, ?_⟩
    unfold insertTxPreview
    simp only [hh, aboveTip_iff.2 ht, if_true]
    rw [htip]
  · right
    let u : SparseChain P := { c.tipUpdate with
      txidToPos := c.tipUpdate.txidToPos.insert t p
      orderedTxids := c.tipUpdate.orderedTxids.add (toLex (p, t)) }
    have hu : ∀ t', u.txidToPos.get t' = if t' = t then some p else none := by
      intro t'; show (c.tipUpdate.txidToPos.insert t p).get t' = _
      rw [tipUpdate_tx, OMap.get_insert]; simp
    have hpre : c.insertTxPreview t p ho = match c.determineChangeset u ho with
        | .ok cs => .ok cs
        | .error (.notConnected _) => .panic
        | .error (.txInconsistent t o u) => .err (.txMovedUnexpectedly t o u) := by
      unfold insertTxPreview
      simp only []
      cases hh : ChainPosition.height p with
      | unconfirmed => rfl
      | confirmed h =>
        simp only []
        have : ¬ aboveTip h (c.checkpoints.last?.map Prod.fst) = true := by
          rw [aboveTip_iff]; intro hf; exact hth ⟨h, hh, hf⟩
        rw [if_neg this]
        rfl
    have hnd : ¬ Diverges c u := insertTx_not_diverges c t p _
    rcases determine_cases c u ho hok.1 with ⟨f, hdis, _⟩ | ⟨_, he⟩
    · exact absurd hdis.1.1 hnd
    · cases hi : findInconsistent c u ho with
      | some e =>
        left
        refine ⟨hth, ?_⟩
        obtain ⟨t', o, q, rfl, hm⟩ := findInconsistent_some hok hi
        obtain ⟨h1, h2, h3, h, hh, _⟩ := hm
        have := hu t'
        unfold txPosition at h2
        rw [h2] at this
        split at this
        · next heq =>
          subst heq; cases this
          refine ⟨o, h, h1, h3, hh, ?_⟩
          rw [hpre, he, hi]
        · cases this
      | none =>
        right
        have hnone := (findInconsistent_none hok).1 hi
        have hnce : ¬ ConfirmedElsewhere c t p := by
          rintro ⟨o, h, ho1, hne, hh⟩
          exact hnone t o p ⟨ho1, by unfold txPosition; rw [hu]; simp, hne, h, hh, fun hd => absurd hd hnd⟩
        refine ⟨hth, hnce, ?_⟩
        obtain ⟨cs, hok'⟩ := (determine_ok_iff (u := u) (ho := ho) hok).2
          ⟨fun f hf => hnd hf.1.1, fun t p q hm => hnone t p q hm⟩
        refine ⟨cs, by rw [hpre, hok'], ?_, ?_⟩
        · apply OMap.eq_empty_iff.2
          intro k
          have hd := determine_ok_cp hok hok' k
          have hni : ¬ Invalidated c u k := fun ⟨f, hf, _⟩ => hnd hf.1
          cases hk : u.checkpoints.get k with
          | none => exact hd.2.2 hk hni
          | some v =>
            rw [hd.1 v hk, if_pos]
            have : HasCp c.tipUpdate k := hasCp_iff.2 ⟨v, hk⟩
            obtain ⟨x, hx1, hx2⟩ := agree_iff.1 (tipUpdate_hasCp this)
            have : c.tipUpdate.checkpoints.get k = some v := hk
            rw [this] at hx1; cases hx1; exact hx2
        · intro t'
          have hd := determine_ok_tx hok hc hok' t'
          by_cases heq : t' = t
          · subst heq
            rw [if_pos rfl]
            exact hd.1 p (by rw [hu]; simp)
          · rw [if_neg heq]
            have hun : u.txidToPos.get t' = none := by rw [hu, if_neg heq]
            cases hct : c.txidToPos.get t' with
            | none => exact hd.2.1 hun hct
            | some p0 => exact hd.2.2.2 p0 hun hct (fun ⟨k, _, f, hf, _⟩ => hnd hf.1)

/-- **C12** `insert_tx` never panics -/
theorem C12_insert_tx_no_panic (c : SparseChain P) (hok : HeightsOk c) (hc : PositionsAgree c) (t : Txid) (p : P)
    (ho : HashOrder (Txid × P)) : (c.insertTx t p ho).2 ≠ .panic := by
  unfold insertTx applyOk
  rcases insertTxPreview_cases c hok (consistent_of_positionsAgree hc) t p ho with
    ⟨_, h, _, he⟩ | ⟨_, o, h, _, _, _, he⟩ | ⟨_, _, cs, he, _⟩ <;> rw [he] <;> simp

/-- **C12** `TxTooHigh` iff the position is confirmed above the tip -/
theorem C12_too_high_iff (c : SparseChain P) (hok : HeightsOk c) (hc : PositionsAgree c) (t : Txid) (p : P)
    (ho : HashOrder (Txid × P)) :
    (∃ t' h tip, (c.insertTx t p ho).2 = .err (.txTooHigh t' h tip)) ↔ TooHigh c p := by
  unfold insertTx applyOk
  rcases insertTxPreview_cases c hok (consistent_of_positionsAgree hc) t p ho with
    ⟨h1, h, _, he⟩ | ⟨h1, o, h, _, _, _, he⟩ | ⟨h1, _, cs, he, _⟩ <;> rw [he] <;> simp [h1]

/-- **C12** `TxMovedUnexpectedly` iff not too high and the txid is confirmed at another position -/
theorem C12_moved_iff (c : SparseChain P) (hok : HeightsOk c) (hc : PositionsAgree c) (t : Txid) (p : P)
    (ho : HashOrder (Txid × P)) :
    (∃ t' o q, (c.insertTx t p ho).2 = .err (.txMovedUnexpectedly t' o q)) ↔
      ¬ TooHigh c p ∧ ConfirmedElsewhere c t p := by
  unfold insertTx applyOk
  rcases insertTxPreview_cases c hok (consistent_of_positionsAgree hc) t p ho with
    ⟨h1, h, _, he⟩ | ⟨h1, o, h, h2, h3, h4, he⟩ | ⟨h1, h2, cs, he, _⟩ <;> rw [he]
  · simp [h1]
  · simp only [h1, not_false_eq_true, true_and]
    exact ⟨fun _ => ⟨o, h, h2, h3, h4⟩, fun _ => ⟨t, o, p, rfl⟩⟩
  · simp [h1, h2]

/-- **C12** on success exactly that txid gets exactly that position -/
theorem C12_insert_tx_effect (c : SparseChain P) (hok : HeightsOk c) (hc : PositionsAgree c) (hlim : Limited c)
    (t : Txid) (p : P) (ho : HashOrder (Txid × P)) (cs : ChangeSet P) (h : (c.insertTx t p ho).2 = .ok cs) :
    let c' := (c.insertTx t p ho).1
    c'.txPosition t = some p ∧ (∀ t', t' ≠ t → c'.txPosition t' = c.txPosition t') ∧
    (∀ k, c'.checkpointAt k = c.checkpointAt k) := by
  intro c'
  have hcon := consistent_of_positionsAgree hc
  rcases insertTxPreview_cases c hok hcon t p ho with
    ⟨h1, k, _, he⟩ | ⟨h1, o, k, h2, h3, h4, he⟩ | ⟨h1, h2, cs', he, hcp, htx⟩
  · unfold insertTx applyOk at h; rw [he] at h; cases h
  · unfold insertTx applyOk at h; rw [he] at h; cases h
  · have hc' : c' = c.applyChangeset cs' := by
      show (c.insertTx t p ho).1 = _
      unfold insertTx applyOk; rw [he]
    have hx : ∀ t', c'.txidToPos.get t' = overlay cs'.txids c.txidToPos t' := by
      intro t'; rw [hc']; exact applyChangeset_tx c cs' t'
    refine ⟨?_, fun t' hne => ?_, fun k => ?_⟩
    · unfold txPosition at *
      rw [hx]; unfold overlay; rw [htx, if_pos rfl]
      by_cases he : c.txidToPos.get t = some p
      · rw [if_pos he]; simpa using he
      · rw [if_neg he]
    · unfold txPosition at *
      rw [hx]; unfold overlay; rw [htx, if_neg hne]
    · have hraw : (rawApply c cs').checkpoints = c.checkpoints := by
        apply OMap.ext_get; intro k; rw [rawApply_cp, hcp]; rfl
      have : c'.checkpoints = c.checkpoints := by
        rw [hc', applyChangeset_raw, prune_of_limited, hraw]
        intro n hn; rw [hraw]; exact hlim n hn
      unfold checkpointAt; rw [this]

example : (exChain.insertTx 9 (.confirmed 6) (HashOrder.id _)).1.txids =
      [(.confirmed 3, 7), (.confirmed 6, 9), (.confirmed 8, 8)] ∧
    (exChain.insertTx 9 (.confirmed 9) (HashOrder.id _)).2 = .err (.txTooHigh 9 9 (some 8)) ∧
    (exChain.insertTx 7 (.confirmed 4) (HashOrder.id _)).2 = .err (.txMovedUnexpectedly 7 (.confirmed 3) (.confirmed 4)) := by
  decide

/-! ## C13 -/

/-- the tip is at the height of `b` with another hash -/
def TipConflicts (c : SparseChain P) (b : BlockId) : Prop :=
  ∃ x, c.latestCheckpoint = some ⟨b.height, x⟩ ∧ x ≠ b.hash

theorem insertCheckpointPreview_cases (c : SparseChain P) (hok : HeightsOk c) (hc : Consistent c) (b : BlockId)
    (ho : HashOrder (Txid × P)) :
    (TipConflicts c b ∧ ∃ x, c.insertCheckpointPreview b ho = .err (.hashNotMatching b.height x b.hash)) ∨
    (¬ TipConflicts c b ∧ ∃ cs, c.insertCheckpointPreview b ho = .ok cs ∧ cs.txids = OMap.empty ∧
      ∀ k, cs.checkpoints.get k = if k = b.height then
        (if c.checkpoints.get k = some b.hash then none else some (some b.hash)) else none) := by
  have hlast : ∀ h x, c.latestCheckpoint = some ⟨h, x⟩ ↔ c.checkpoints.last? = some (h, x) := by
    intro h x; unfold latestCheckpoint
    cases c.checkpoints.last? with
    | none => simp
    | some e => obtain ⟨a, b⟩ := e; simp
  by_cases htc : TipConflicts c b
  · left
    refine ⟨htc, ?_⟩
    obtain ⟨x, hx, hne⟩ := htc
    refine ⟨x, ?_⟩
    rw [hlast] at hx
    unfold insertCheckpointPreview
    simp only [tipUpdate_get, hx, if_true, ne_eq, hne, not_false_eq_true]
  · right
    refine ⟨htc, ?_⟩
    let u : SparseChain P := { c.tipUpdate with checkpoints := c.tipUpdate.checkpoints.insert b.height b.hash }
    have hmm : ∀ x, c.tipUpdate.checkpoints.get b.height = some x → x = b.hash := by
      intro x hx
      rw [tipUpdate_get] at hx
      cases hl : c.checkpoints.last? with
      | none => rw [hl] at hx; cases hx
      | some e =>
        rw [hl] at hx
        simp only at hx
        split at hx
        · next he =>
          cases hx
          by_contra hne
          refine htc ⟨e.2, (hlast _ _).2 ?_, hne⟩
          rw [hl, he]
        · cases hx
    have hpre : c.insertCheckpointPreview b ho = match c.determineChangeset u ho with
        | .ok cs => .ok cs
        | .error (.notConnected _) => .panic
        | .error (.txInconsistent _ _ _) => .panic := by
      unfold insertCheckpointPreview
      simp only []
      cases hx : c.tipUpdate.checkpoints.get b.height with
      | none => rfl
      | some x =>
        have hxx := hmm x hx
        simp only [hxx, ne_eq, not_true_eq_false, if_false]
        rfl
    have hucp : ∀ k, u.checkpoints.get k = if k = b.height then some b.hash else c.tipUpdate.checkpoints.get k := by
      intro k; exact OMap.get_insert _ _ _ _
    have hutx : ∀ t, u.txidToPos.get t = none := by
      intro t; show c.tipUpdate.txidToPos.get t = none; rw [tipUpdate_tx]; rfl
    -- no block of ours is invalidated
    have hnf : ∀ f, ¬ FirstInvalid c u f := by
      rintro f ⟨hd, hfc, hab, _⟩
      obtain ⟨tip, htip, hle⟩ := exists_tip hfc
      obtain ⟨x, hx⟩ := hasCp_iff.1 htip.1
      have hl : c.checkpoints.last? = some (tip, x) := by
        rw [OMap.last?_eq_some]
        exact ⟨hx, fun k' v' h => htip.2 k' (hasCp_iff.2 ⟨v', h⟩)⟩
      have hag : Agree c u tip := by
        rw [agree_iff]
        refine ⟨x, ?_, hx⟩
        rw [hucp]
        have ht : c.tipUpdate.checkpoints.get tip = some x := by rw [tipUpdate_get, hl]; simp
        split
        · next he => rw [hmm x (by rw [← he]; exact ht)]
        · exact ht
      have := hab tip hag
      omega
    obtain ⟨cs, hcs⟩ := (determine_ok_iff (u := u) (ho := ho) hok).2
      ⟨fun f hf => hnf f hf.1, fun t p q hm => by
        have := hm.2.1; unfold txPosition at this; rw [hutx] at this; cases this⟩
    refine ⟨cs, by rw [hpre, hcs], ?_, ?_⟩
    · apply OMap.eq_empty_iff.2
      intro t
      have hd := determine_ok_tx hok hc hcs t
      cases hct : c.txidToPos.get t with
      | none => exact hd.2.1 (hutx t) hct
      | some p0 => exact hd.2.2.2 p0 (hutx t) hct (fun ⟨k, _, f, hf, _⟩ => hnf f hf)
    · intro k
      have hd := determine_ok_cp hok hcs k
      by_cases hk : k = b.height
      · rw [if_pos hk]; exact hd.1 b.hash (by rw [hucp, if_pos hk])
      · rw [if_neg hk]
        cases hu : u.checkpoints.get k with
        | none => exact hd.2.2 hu (fun ⟨f, hf, _⟩ => hnf f hf)
        | some v =>
          rw [hd.1 v hu, if_pos]
          rw [hucp, if_neg hk] at hu
          obtain ⟨x, hx1, hx2⟩ := agree_iff.1 (tipUpdate_hasCp (hasCp_iff.2 ⟨v, hu⟩))
          rw [hu] at hx1; cases hx1; exact hx2

/-- **C13** `insert_checkpoint` never panics, and fails iff the *tip* has the same height and another hash -/
theorem C13_insert_checkpoint_outcome (c : SparseChain P) (hok : HeightsOk c) (hc : PositionsAgree c) (b : BlockId)
    (ho : HashOrder (Txid × P)) :
    (c.insertCheckpoint b ho).2 ≠ .panic ∧
    ((∃ e, (c.insertCheckpoint b ho).2 = .err e) ↔ TipConflicts c b) := by
  unfold insertCheckpoint applyOk
  rcases insertCheckpointPreview_cases c hok (consistent_of_positionsAgree hc) b ho with
    ⟨h1, x, he⟩ | ⟨h1, cs, he, _⟩ <;> rw [he] <;> simp [h1]

/-- **C13** a success puts the block at its height and changes nothing else (no limit) -/
theorem C13_insert_checkpoint_effect (c : SparseChain P) (hok : HeightsOk c) (hc : PositionsAgree c)
    (hl : c.checkpointLimit = none) (b : BlockId) (ho : HashOrder (Txid × P)) (h : ¬ TipConflicts c b) :
    let c' := (c.insertCheckpoint b ho).1
    (∀ k, c'.checkpointAt k = if k = b.height then some b else c.checkpointAt k) ∧
    (∀ t, c'.txPosition t = c.txPosition t) := by
  intro c'
  rcases insertCheckpointPreview_cases c hok (consistent_of_positionsAgree hc) b ho with
    ⟨h1, x, he⟩ | ⟨h1, cs, he, htx, hcp⟩
  · exact absurd h1 h
  · have hc' : c' = c.applyChangeset cs := by
      show (c.insertCheckpoint b ho).1 = _
      unfold insertCheckpoint applyOk; rw [he]
    constructor
    · intro k
      unfold checkpointAt
      rw [hc', applyChangeset_cp c cs hl]
      unfold overlay; rw [hcp]
      by_cases hk : k = b.height
      · subst hk
        simp only [if_true]
        by_cases hs : c.checkpoints.get b.height = some b.hash
        · simp [hs]
        · simp [hs]
      · simp [hk]
    · intro t
      unfold txPosition
      rw [hc', applyChangeset_tx, htx]; rfl

/-- The documentation of `insert_checkpoint_preview` (sparse_chain.rs:687-689: "If the change would result in a
change in block hash of a certain height, insertion would fail") does not hold: below the tip the hash is
silently replaced. -/
theorem C13_doc_conflict_below_tip_accepted :
    ¬ ∀ (c : SparseChain TxHeight) (b b' : BlockId) (ho : HashOrder (Txid × TxHeight)),
      HeightsOk c → PositionsAgree c → c.checkpointAt b.height = some b' → b' ≠ b →
      ∃ e, (c.insertCheckpoint b ho).2 = .err e := by
  intro h
  obtain ⟨e, he⟩ := h exChain ⟨5, 99⟩ ⟨5, 15⟩ (HashOrder.id _) exChain_heightsOk exChain_positionsAgree
    (by decide) (by decide)
  have h2 := (C13_insert_checkpoint_outcome exChain exChain_heightsOk exChain_positionsAgree ⟨5, 99⟩ (HashOrder.id _)).2.1
    ⟨e, he⟩
  obtain ⟨x, hx, _⟩ := h2
  have : exChain.latestCheckpoint = some ⟨8, 18⟩ := by decide
  rw [this] at hx
  cases hx

example : (exChain.insertCheckpoint ⟨8, 99⟩ (HashOrder.id _)).2 = .err (.hashNotMatching 8 18 99) ∧
    (exChain.insertCheckpoint ⟨5, 99⟩ (HashOrder.id _)).1.checkpoints.entries = [(1, 11), (5, 99), (8, 18)] := by decide

/-! ## C14 -/

/-- operations of C14: updates and insertions with sane heights, mempool clearing, non-zero limits -/
def GoodOp : Op P → Prop
  | .applyUpdate u _ => HeightsOk u ∧ ConfirmedBelowTip u
  | .insertTx _ p _ => ∀ h, ChainPosition.height p = .confirmed h → h < u32Max
  | .insertCheckpoint b _ => b.height < u32Max
  | .clearMempool => True
  | .setCheckpointLimit l => l ≠ some 0
  | _ => False

theorem goodOp_heights {op : Op P} (h : GoodOp op) : OpHeightsOk op := by
  cases op <;> simp only [GoodOp, OpHeightsOk] at * <;> try trivial
  · exact h.1

theorem step_confirmedBelowTip (c : SparseChain P) (hok : HeightsOk c) (hc : Consistent c)
    (hn : c.checkpointLimit ≠ some 0) (h1 : ConfirmedBelowTip c) (op : Op P) (hop : GoodOp op) :
    ConfirmedBelowTip (c.step op) ∧ (c.step op).checkpointLimit ≠ some 0 := by
  cases op with
  | applyUpdate u ho =>
    unfold step applyUpdate; simp only []
    split
    · exact ⟨h1, hn⟩
    · next cs hd =>
      exact ⟨confirmedBelowTip_update hok hc hn h1 hop.2 hd, by simp only [applyChangeset_limit]; exact hn⟩
  | applyChangeset cs => exact absurd hop (by simp [GoodOp])
  | insertTx t p ho =>
    unfold step insertTx applyOk; simp only []
    split
    · next cs hd =>
      refine ⟨?_, by simp only [applyChangeset_limit]; exact hn⟩
      obtain ⟨hdet, hab⟩ := insertTxPreview_ok hd
      apply confirmedBelowTip_update hok hc hn h1 _ hdet
      intro t' p' k hp' hh'
      have hp'' : (c.tipUpdate.txidToPos.insert t p).get t' = some p' := hp'
      rw [tipUpdate_tx, OMap.get_insert] at hp''
      split at hp''
      · cases hp''
        have hna := hab k hh'
        cases hlast : c.checkpoints.last? with
        | none => rw [hlast] at hna; simp [aboveTip] at hna
        | some e =>
          rw [hlast] at hna
          have hle : k ≤ e.1 := by simpa [aboveTip] using hna
          refine ⟨e.1, ⟨?_, ?_⟩, hle⟩
          · rw [hasCp_iff]; exact ⟨e.2, by show c.tipUpdate.checkpoints.get e.1 = _; rw [tipUpdate_get, hlast]; simp⟩
          · intro h' hh
            obtain ⟨x, hx⟩ := hasCp_iff.1 hh
            have hx' : c.tipUpdate.checkpoints.get h' = some x := hx
            rw [tipUpdate_get, hlast] at hx'
            simp only at hx'
            split at hx'
            · next he => exact le_of_eq he
            · cases hx'
      · cases hp''
    · exact ⟨h1, hn⟩
  | insertCheckpoint b ho =>
    unfold step insertCheckpoint applyOk; simp only []
    split
    · next cs hd =>
      refine ⟨?_, by simp only [applyChangeset_limit]; exact hn⟩
      obtain ⟨hdet, _⟩ := insertCheckpointPreview_ok hd
      apply confirmedBelowTip_update hok hc hn h1 _ hdet
      intro t' p' k hp' hh'
      have hp'' : c.tipUpdate.txidToPos.get t' = some p' := hp'
      rw [tipUpdate_tx] at hp''; cases hp''
    · exact ⟨h1, hn⟩
  | invalidateCheckpoints f => exact absurd hop (by simp [GoodOp])
  | clearMempool =>
    refine ⟨?_, by show (c.applyChangeset _).checkpointLimit ≠ _; rw [applyChangeset_limit]; exact hn⟩
    intro t p k hp hh
    have htx : (c.step .clearMempool).txidToPos.get t = overlay c.clearMempoolPreview.txids c.txidToPos t :=
      applyChangeset_tx c _ t
    unfold txPosition at hp
    rw [htx] at hp; unfold overlay at hp
    rw [clearPreview_tx c hc] at hp
    have hp' : c.txidToPos.get t = some p := by
      cases hx : c.txidToPos.get t with
      | none => rw [hx] at hp; cases hp
      | some p0 =>
        rw [hx] at hp
        simp only at hp
        by_cases hu : ChainPosition.height p0 = .unconfirmed
        · simp [hu] at hp
        · simpa [hu] using hp
    obtain ⟨tip, ht, hle⟩ := h1 t p k hp' hh
    have hcp : HasCp (rawApply c c.clearMempoolPreview) tip := by
      obtain ⟨x, hx⟩ := hasCp_iff.1 ht.1
      rw [hasCp_iff]; refine ⟨x, ?_⟩
      rw [rawApply_cp]; unfold overlay clearMempoolPreview; simpa using hx
    obtain ⟨tip', ht', hle'⟩ := tip_after_prune (c := rawApply c c.clearMempoolPreview) hn hcp
    exact ⟨tip', ht', le_trans hle hle'⟩
  | setCheckpointLimit l =>
    have hp := prune_tx ({ c with checkpointLimit := l } : SparseChain P)
    refine ⟨?_, by
      have : (c.step (.setCheckpointLimit l)).checkpointLimit = l := hp.2.2
      rw [this]; exact hop⟩
    intro t p k htp hh
    have hp' : c.txidToPos.get t = some p := by
      have : (c.step (.setCheckpointLimit l)).txidToPos = c.txidToPos := hp.1
      unfold txPosition at htp; rw [this] at htp; exact htp
    obtain ⟨tip, ht, hle⟩ := h1 t p k hp' hh
    exact ⟨tip, prune_tip (c := { c with checkpointLimit := l }) hop ht, hle⟩

/-- **C14** in every history of updates (well formed themselves), insertions, mempool clearings and non-zero limits,
no transaction is confirmed above the tip.  Missing from the full claim: `invalidate_checkpoints`, limit 0 and
foreign changesets, for which it is false (below). -/
theorem C14_confirmed_below_tip (ops : List (Op P)) (h : ∀ op ∈ ops, GoodOp op) :
    ConfirmedBelowTip ((SparseChain.empty : SparseChain P).run ops) := by
  have gen : ∀ (ops : List (Op P)) (c : SparseChain P), HeightsOk c → Consistent c → c.checkpointLimit ≠ some 0 →
      ConfirmedBelowTip c → (∀ op ∈ ops, GoodOp op) → ConfirmedBelowTip (c.run ops) := by
    intro ops
    induction ops with
    | nil => intro c _ _ _ h1 _; exact h1
    | cons op ops ih =>
      intro c hok hc hn h1 hg
      have hop := hg op (by simp)
      have hs := step_confirmedBelowTip c hok hc hn h1 op hop
      exact ih _ (step_heightsOk hok hc op (goodOp_heights hop)) (step_consistent c op hc) hs.2 hs.1
        (fun o ho => hg o (by simp [ho]))
  exact gen ops _ empty_heightsOk empty_consistent (by simp [SparseChain.empty]) (by intro t p k hp; cases hp) h

theorem exReorg_confirmedBelowTip : ConfirmedBelowTip exReorg := by
  intro t p k hp hh
  have hm : (t, p) ∈ exReorg.txidToPos.entries := OMap.mem_entries.2 hp
  have he : exReorg.txidToPos.entries = [(9, .confirmed 9)] := by decide
  rw [he] at hm
  simp at hm
  obtain ⟨rfl, rfl⟩ := hm
  cases hh
  exact ⟨9, isTip_last.2 (by decide), le_refl _⟩

example : GoodOp (.applyUpdate exReorg (HashOrder.id _)) := ⟨exReorg_heightsOk, exReorg_confirmedBelowTip⟩

/-- invalidating blocks leaves transactions confirmed above the new tip -/
theorem C14_fails_for_invalidate :
    ∃ f, ¬ ConfirmedBelowTip (exChain.invalidateCheckpoints f).1 := by
  refine ⟨5, fun h => ?_⟩
  obtain ⟨tip, ht, hle⟩ := h 7 (.confirmed 3) 3 (by decide) rfl
  have : tip = 1 := by
    rw [isTip_last] at ht
    have h2 : (exChain.invalidateCheckpoints 5).1.checkpoints.last?.map Prod.fst = some 1 := by decide
    rw [h2] at ht; cases ht; rfl
  omega

/-- so does a checkpoint limit of zero -/
theorem C14_fails_for_limit_zero : ¬ ConfirmedBelowTip (exChain.setCheckpointLimit (some 0)) := by
  intro h
  obtain ⟨tip, ht, _⟩ := h 7 (.confirmed 3) 3 (by decide) rfl
  rw [isTip_last] at ht
  have h2 : (exChain.setCheckpointLimit (some 0)).checkpoints.last?.map Prod.fst = none := by decide
  rw [h2] at ht; cases ht

/-! ## C15 -/

/-- membership in a pair of Rust range bounds -/
def InRange {α : Type} [LinearOrder α] (lo hi : Bound α) (x : α) : Prop :=
  (match lo with | .included a => a ≤ x | .excluded a => a < x | .unbounded => True) ∧
  (match hi with | .included b => x ≤ b | .excluded b => x < b | .unbounded => True)

theorem inRange_iff {α : Type} [LinearOrder α] {lo hi : Bound α} {x : α} :
    InRange lo hi x ↔ lo.geB x = true ∧ hi.leB x = true := by
  unfold InRange Bound.geB Bound.leB
  cases lo <;> cases hi <;> simp

theorem rangeList_sublist (c : SparseChain P) (lo hi : Bound (P ×ₗ Txid)) :
    (c.rangeList lo hi).Sublist c.txids := by
  unfold rangeList txids
  exact (List.filter_sublist).map _

/-- **C15** `range_txids_by_height` yields exactly the pairs with height in the range, in order; it panics exactly
for ranges of heights for which `BTreeSet::range` itself would panic -/
theorem C15_range_by_height (c : SparseChain P) (hc : PositionsAgree c) (lo hi : Bound TxHeight) :
    (c.rangeTxidsByHeight lo hi = none ↔ Bound.rangePanics lo hi = true) ∧
    (∀ l, c.rangeTxidsByHeight lo hi = some l →
      l.Sublist c.txids ∧
      ∀ p t, (p, t) ∈ l ↔ c.txPosition t = some p ∧ InRange lo hi (ChainPosition.height p)) := by
  have hcon := consistent_of_positionsAgree hc
  constructor
  · unfold rangeTxidsByHeight rangeTxids
    rw [ite_eq_left_iff]
    simp only [reduceCtorEq, imp_false, Bool.not_eq_true, Bool.not_eq_false]
    unfold heightLo heightHi mapHeightBound ordIt
    have hmm : ∀ h : TxHeight, (ChainPosition.minOrd h : P) ≤ ChainPosition.maxOrd h := fun h => by
      have := LawfulChainPosition.le_max (ChainPosition.minOrd h : P)
      rwa [LawfulChainPosition.height_min] at this
    have hlt : ∀ (a b : TxHeight) (p q : P), ChainPosition.height p = a → ChainPosition.height q = b → a < b → p < q := by
      intro a b p q ha hb hab; apply height_lt_of_lt; rw [ha, hb]; exact hab
    have hmin := LawfulChainPosition.height_min (P := P)
    have hmax := LawfulChainPosition.height_max (P := P)
    have hmt : minTxid < maxTxid := by decide
    cases lo with
    | unbounded => cases hi <;> simp [Bound.rangePanics]
    | included a =>
      cases hi with
      | unbounded => simp [Bound.rangePanics]
      | included b =>
        simp only [Bound.rangePanics, decide_eq_true_eq, Prod.Lex.toLex_lt_toLex]
        constructor
        · rintro (h | ⟨h, h'⟩)
          · by_contra hc
            rcases lt_or_eq_of_le (not_lt.1 hc) with h2 | h2
            · exact absurd (hlt _ _ _ _ (hmin a) (hmax b) h2) (not_lt.2 h.le)
            · subst h2; exact absurd h (not_lt.2 (hmm a))
          · exact absurd h' (not_lt.2 hmt.le)
        · intro h; exact Or.inl (hlt _ _ _ _ (hmax b) (hmin a) h)
      | excluded b =>
        simp only [Bound.rangePanics, decide_eq_true_eq, Prod.Lex.toLex_lt_toLex, lt_self_iff_false, and_false, or_false]
        constructor
        · intro h
          by_contra hc
          rcases lt_or_eq_of_le (not_lt.1 hc) with h2 | h2
          · exact absurd (hlt _ _ _ _ (hmin a) (hmin b) h2) (not_lt.2 h.le)
          · subst h2; exact absurd h (lt_irrefl _)
        · intro h; exact hlt _ _ _ _ (hmin b) (hmin a) h
    | excluded a =>
      cases hi with
      | unbounded => simp [Bound.rangePanics]
      | included b =>
        simp only [Bound.rangePanics, decide_eq_true_eq, Prod.Lex.toLex_lt_toLex, lt_self_iff_false, and_false, or_false]
        constructor
        · intro h
          by_contra hc
          rcases lt_or_eq_of_le (not_lt.1 hc) with h2 | h2
          · exact absurd (hlt _ _ _ _ (hmax a) (hmax b) h2) (not_lt.2 h.le)
          · subst h2; exact absurd h (lt_irrefl _)
        · intro h; exact hlt _ _ _ _ (hmax b) (hmax a) h
      | excluded b =>
        simp only [Bound.rangePanics, decide_eq_true_eq, Prod.Lex.toLex_le_toLex]
        constructor
        · intro h
          by_contra hc
          have h2 := hlt _ _ _ _ (hmax a) (hmin b) (not_le.1 hc)
          rcases h with h | ⟨h, _⟩
          · exact absurd h (not_lt.2 h2.le)
          · exact absurd h.symm h2.ne
        · intro h
          rcases lt_or_eq_of_le h with h2 | h2
          · exact Or.inl (hlt _ _ _ _ (hmin b) (hmax a) h2)
          · subst h2
            rcases lt_or_eq_of_le (hmm b) with h3 | h3
            · exact Or.inl h3
            · exact Or.inr ⟨h3, hmt.le⟩
  · intro l hl
    unfold rangeTxidsByHeight rangeTxids at hl
    split at hl
    · cases hl
    · cases hl
      refine ⟨rangeList_sublist _ _ _, fun p t => ?_⟩
      rw [mem_rangeList, hcon, heightLo_ge, heightHi_le, inRange_iff]
      rfl

/-- **C15** the same for `range_txids_by_position` -/
theorem C15_range_by_position (c : SparseChain P) (hc : PositionsAgree c) (lo hi : Bound P) :
    (c.rangeTxidsByPosition lo hi = none ↔ Bound.rangePanics lo hi = true) ∧
    (∀ l, c.rangeTxidsByPosition lo hi = some l →
      l.Sublist c.txids ∧
      ∀ p t, (p, t) ∈ l ↔ c.txPosition t = some p ∧ InRange lo hi p) := by
  have hcon := consistent_of_positionsAgree hc
  have hmt : minTxid < maxTxid := by decide
  constructor
  · unfold rangeTxidsByPosition rangeTxids
    rw [ite_eq_left_iff]
    simp only [reduceCtorEq, imp_false, Bool.not_eq_true, Bool.not_eq_false]
    unfold mapPosBound
    cases lo with
    | unbounded => cases hi <;> simp [Bound.rangePanics]
    | included a =>
      cases hi with
      | unbounded => simp [Bound.rangePanics]
      | included b =>
        simp [Bound.rangePanics, Prod.Lex.toLex_lt_toLex, not_lt.2 hmt.le]
      | excluded b => simp [Bound.rangePanics, Prod.Lex.toLex_lt_toLex]
    | excluded a =>
      cases hi with
      | unbounded => simp [Bound.rangePanics]
      | included b => simp [Bound.rangePanics, Prod.Lex.toLex_lt_toLex]
      | excluded b =>
        simp only [Bound.rangePanics, Prod.Lex.toLex_le_toLex, decide_eq_true_eq, hmt.le, and_true]
        exact le_iff_lt_or_eq.symm
  · intro l hl
    unfold rangeTxidsByPosition rangeTxids at hl
    split at hl
    · cases hl
    · cases hl
      refine ⟨rangeList_sublist _ _ _, fun p t => ?_⟩
      rw [mem_rangeList, hcon, inRange_iff]
      have h1 : (mapPosBound lo minTxid maxTxid).geB (toLex (p, t)) = lo.geB p := by
        unfold mapPosBound
        cases lo with
        | unbounded => rfl
        | included a =>
          simp only [Bound.geB]; congr 1
          rw [Prod.Lex.toLex_le_toLex]
          simp only [minTxid_le, and_true, eq_iff_iff]
          exact le_iff_lt_or_eq.symm
        | excluded a =>
          simp only [Bound.geB]; congr 1
          rw [Prod.Lex.toLex_lt_toLex]
          simp [not_lt.2 (le_maxTxid t)]
      have h2 : (mapPosBound hi maxTxid minTxid).leB (toLex (p, t)) = hi.leB p := by
        unfold mapPosBound
        cases hi with
        | unbounded => rfl
        | included a =>
          simp only [Bound.leB]; congr 1
          rw [Prod.Lex.toLex_le_toLex]
          simp only [le_maxTxid, and_true, eq_iff_iff]
          exact le_iff_lt_or_eq.symm
        | excluded a =>
          simp only [Bound.leB]; congr 1
          rw [Prod.Lex.toLex_lt_toLex]
          simp [not_lt.2 (minTxid_le t)]
      rw [h1, h2]
      rfl

example : exChain.rangeTxidsByHeight (.excluded (.confirmed 3)) (.included .unconfirmed) =
    some [(.confirmed 8, 8), (.unconfirmed, 9)] ∧
    exChain.rangeTxidsByHeight (.excluded (.confirmed 3)) (.excluded (.confirmed 3)) = none := by decide

/-! ## C16 -/

/-- **C16** both position types of the crate are ordered by height first, with exact bounds per height -/
theorem C16_positions_ordered_by_height :
    (∀ a b : TxHeight, a ≤ b → ChainPosition.height a ≤ ChainPosition.height b) ∧
    (∀ a b : ConfirmationTime, a ≤ b → ChainPosition.height a ≤ ChainPosition.height b) ∧
    (∀ (h : TxHeight) (p : TxHeight), ChainPosition.height p = h ↔
      (ChainPosition.minOrd h : TxHeight) ≤ p ∧ p ≤ ChainPosition.maxOrd h) ∧
    (∀ (h : TxHeight) (p : ConfirmationTime), ChainPosition.height p = h ↔
      (ChainPosition.minOrd h : ConfirmationTime) ≤ p ∧ p ≤ ChainPosition.maxOrd h) := by
  have gen : ∀ (Q : Type) [LinearOrder Q] [ChainPosition Q] [LawfulChainPosition Q] (h : TxHeight) (p : Q),
      ChainPosition.height p = h ↔ (ChainPosition.minOrd h : Q) ≤ p ∧ p ≤ ChainPosition.maxOrd h := by
    intro Q _ _ _ h p
    constructor
    · rintro rfl; exact ⟨LawfulChainPosition.min_le p, LawfulChainPosition.le_max p⟩
    · rintro ⟨h1, h2⟩
      have := LawfulChainPosition.height_mono h1
      have h3 := LawfulChainPosition.height_mono h2
      rw [LawfulChainPosition.height_min] at this
      rw [LawfulChainPosition.height_max] at h3
      exact le_antisymm h3 this
  exact ⟨fun a b h => LawfulChainPosition.height_mono h, fun a b h => LawfulChainPosition.height_mono h,
    gen _, gen _⟩

/-- **C16** the bounds of a height are positions of that height, and every confirmed position is below every unconfirmed one -/
theorem C16_bounds_and_unconfirmed (Q : Type) [LinearOrder Q] [ChainPosition Q] (hQ : LawfulChainPosition Q) :
    (∀ h : TxHeight, ChainPosition.height (ChainPosition.minOrd h : Q) = h ∧ ChainPosition.height (ChainPosition.maxOrd h : Q) = h) ∧
    (∀ (a b : Q) (k : Nat), ChainPosition.height a = .confirmed k → ChainPosition.height b = .unconfirmed → a < b) ∧
    (∀ (a b : Q) (k k' : Nat), ChainPosition.height a = .confirmed k → ChainPosition.height b = .confirmed k' → k < k' → a < b) := by
  have lt : ∀ a b : Q, ChainPosition.height a < ChainPosition.height b → a < b := by
    intro a b h
    by_contra hn
    exact absurd (hQ.height_mono (not_lt.1 hn)) (not_le.2 h)
  refine ⟨fun h => ⟨hQ.height_min h, hQ.height_max h⟩, ?_, ?_⟩
  · intro a b k ha hb
    apply lt; rw [ha, hb]; exact lt_of_le_of_ne (by rfl) (fun h => by cases h)
  · intro a b k k' ha hb hk
    apply lt; rw [ha, hb]
    refine lt_of_le_of_ne ?_ (fun h => by cases h; exact absurd hk (Nat.lt_irrefl _))
    show TxHeight.leB _ _ = true
    simp [TxHeight.leB]; omega

/-- the position types of the crate satisfy the contract -/
example : LawfulChainPosition TxHeight ∧ LawfulChainPosition ConfirmationTime := ⟨inferInstance, inferInstance⟩

end Verif.Props
