import Verif.Spec.SparseChain

set_option linter.unusedSectionVars false

namespace Verif.SparseChain
open Verif Verif.Spec
variable {P : Type} [LinearOrder P] [ChainPosition P]

/-- redundancy invariant on the raw maps -/
def Consistent (c : SparseChain P) : Prop :=
  ∀ p t, OSet.mem c.orderedTxids (toLex (p, t)) = true ↔ c.txidToPos.get t = some p

/-- effect of a change map on a base map -/
def overlay {K V : Type} [LinearOrder K] (changes : OMap K (Option V)) (base : OMap K V) (k : K) : Option V :=
  match changes.get k with
  | some o => o
  | none => base.get k

theorem applyCheckpoint_get (m : OMap Nat BlockHash) (k : Nat) (o : Option BlockHash) (k' : Nat) :
    (applyCheckpoint m (k, o)).get k' = if k' = k then o else m.get k' := by
  cases o with
  | none => simp [applyCheckpoint, OMap.get_erase]
  | some v => simp [applyCheckpoint, OMap.get_insert]

theorem foldl_applyCheckpoint (cs : OMap Nat (Option BlockHash)) (m : OMap Nat BlockHash) (h : Nat) :
    (cs.entries.foldl applyCheckpoint m).get h = overlay cs m h := by
  rw [OMap.foldl_entries cs applyCheckpoint (fun m k => m.get k) (fun _ o _ => o) m
    (by intro s k v k'; exact applyCheckpoint_get s k v k')]
  unfold overlay; cases cs.get h <;> rfl

theorem applyTx_get (s : OMap Txid P × OSet (P ×ₗ Txid)) (k : Txid) (o : Option P) (k' : Txid) :
    (applyTx s (k, o)).1.get k' = if k' = k then o else s.1.get k' := by
  cases o with
  | none => simp [applyTx, OMap.get_erase]
  | some v =>
    simp only [applyTx, OMap.get_insert, OMap.get_erase]
    split <;> rfl

theorem foldl_applyTx (cs : OMap Txid (Option P)) (s : OMap Txid P × OSet (P ×ₗ Txid)) (t : Txid) :
    (cs.entries.foldl applyTx s).1.get t = overlay cs s.1 t := by
  rw [OMap.foldl_entries cs applyTx (fun m k => m.1.get k) (fun _ o _ => o) s
    (by intro s k v k'; exact applyTx_get s k v k')]
  unfold overlay; cases cs.get t <;> rfl

/-- consistency of the pair of tx indexes -/
def PairOk (s : OMap Txid P × OSet (P ×ₗ Txid)) : Prop :=
  ∀ p t, OSet.mem s.2 (toLex (p, t)) = true ↔ s.1.get t = some p

theorem toLex_eq {p p' : P} {t t' : Txid} : toLex (p, t) = toLex (p', t') ↔ p = p' ∧ t = t' := by
  simp

theorem applyTx_ok (s : OMap Txid P × OSet (P ×ₗ Txid)) (e : Txid × Option P) (h : PairOk s) :
    PairOk (applyTx s e) := by
  obtain ⟨k, o⟩ := e
  obtain ⟨rem, hremdef⟩ : ∃ rem : OSet (P ×ₗ Txid), rem = (match s.1.get k with
      | some pos => OSet.remove s.2 (toLex (pos, k))
      | none => s.2) := ⟨_, rfl⟩
  have hrem : ∀ p t, OSet.mem rem (toLex (p, t)) = true ↔ t ≠ k ∧ s.1.get t = some p := by
    intro p t
    subst hremdef
    cases hk : s.1.get k with
    | none =>
      simp only []
      rw [h]
      constructor
      · intro h1; refine ⟨?_, h1⟩; rintro rfl; rw [hk] at h1; cases h1
      · exact fun h1 => h1.2
    | some pos =>
      simp only []
      rw [OSet.mem_remove, Bool.and_eq_true, h]
      simp only [ne_eq, toLex_eq, not_and, decide_eq_true_eq]
      constructor
      · rintro ⟨h1, h2⟩
        refine ⟨?_, h2⟩
        rintro rfl
        rw [hk] at h2; cases h2; exact h1 rfl rfl
      · rintro ⟨h1, h2⟩; exact ⟨fun _ => h1, h2⟩
  intro p t
  rw [applyTx_get]
  cases o with
  | none =>
    have : (applyTx s (k, none)).2 = rem := by rw [hremdef]; rfl
    rw [this, hrem]
    by_cases ht : t = k <;> simp [ht]
  | some v =>
    have : (applyTx s (k, some v)).2 = rem.add (toLex (v, k)) := by rw [hremdef]; rfl
    rw [this, OSet.mem_add, Bool.or_eq_true, hrem, decide_eq_true_eq, toLex_eq]
    by_cases ht : t = k
    · subst ht; simp; exact eq_comm
    · simp [ht]

theorem foldl_applyTx_ok (l : List (Txid × Option P)) (s : OMap Txid P × OSet (P ×ₗ Txid)) (h : PairOk s) :
    PairOk (l.foldl applyTx s) := by
  induction l generalizing s with
  | nil => exact h
  | cons e l ih => exact ih _ (applyTx_ok s e h)

theorem prune_tx (c : SparseChain P) : c.pruneCheckpoints.txidToPos = c.txidToPos ∧
    c.pruneCheckpoints.orderedTxids = c.orderedTxids ∧
    c.pruneCheckpoints.checkpointLimit = c.checkpointLimit := by
  unfold pruneCheckpoints
  split
  · simp
  · split <;> simp

theorem prune_none (c : SparseChain P) (h : c.checkpointLimit = none) : c.pruneCheckpoints = c := by
  unfold pruneCheckpoints; rw [h]

theorem applyChangeset_tx (c : SparseChain P) (cs : ChangeSet P) (t : Txid) :
    (c.applyChangeset cs).txidToPos.get t = overlay cs.txids c.txidToPos t := by
  unfold applyChangeset
  simp only []
  rw [(prune_tx _).1]
  exact foldl_applyTx cs.txids _ t

theorem applyChangeset_limit (c : SparseChain P) (cs : ChangeSet P) :
    (c.applyChangeset cs).checkpointLimit = c.checkpointLimit := by
  unfold applyChangeset; simp only []; rw [(prune_tx _).2.2]

theorem applyChangeset_cp (c : SparseChain P) (cs : ChangeSet P) (hl : c.checkpointLimit = none) (h : Nat) :
    (c.applyChangeset cs).checkpoints.get h = overlay cs.checkpoints c.checkpoints h := by
  unfold applyChangeset
  simp only []
  rw [prune_none _ (by simpa using hl)]
  exact foldl_applyCheckpoint cs.checkpoints _ h

theorem applyChangeset_consistent (c : SparseChain P) (cs : ChangeSet P) (h : Consistent c) :
    Consistent (c.applyChangeset cs) := by
  unfold Consistent applyChangeset
  simp only []
  rw [(prune_tx _).1, (prune_tx _).2.1]
  exact foldl_applyTx_ok cs.txids.entries (c.txidToPos, c.orderedTxids) h

theorem empty_consistent : Consistent (SparseChain.empty : SparseChain P) := by
  intro p t; simp [SparseChain.empty]

theorem fromCheckpoints_consistent (l : List BlockId) : Consistent (SparseChain.fromCheckpoints l : SparseChain P) := by
  intro p t; simp [SparseChain.fromCheckpoints, SparseChain.empty]

theorem prune_consistent (c : SparseChain P) (h : Consistent c) : Consistent c.pruneCheckpoints := by
  unfold Consistent; rw [(prune_tx c).1, (prune_tx c).2.1]; exact h

/-- a consistent chain is determined by its three maps -/
theorem ext_of_consistent {a b : SparseChain P} (ha : Consistent a) (hb : Consistent b)
    (h1 : ∀ h, a.checkpoints.get h = b.checkpoints.get h)
    (h2 : ∀ t, a.txidToPos.get t = b.txidToPos.get t)
    (h3 : a.checkpointLimit = b.checkpointLimit) : a = b := by
  have e1 := OMap.ext_get h1
  have e2 := OMap.ext_get h2
  have e3 : a.orderedTxids = b.orderedTxids := by
    apply OSet.ext_mem
    intro k
    obtain ⟨p, t, rfl⟩ : ∃ p t, k = toLex (p, t) := ⟨(ofLex k).1, (ofLex k).2, rfl⟩
    rw [Bool.eq_iff_iff]
    change OSet.mem a.orderedTxids (toLex (p, t)) = true ↔ OSet.mem b.orderedTxids (toLex (p, t)) = true
    rw [ha, hb, h2]
  cases a; cases b; simp_all

/-! ### steps keep the invariant -/

theorem applyUpdate_consistent (c u : SparseChain P) (ho) (h : Consistent c) :
    Consistent (c.applyUpdate u ho).1 := by
  unfold applyUpdate
  split
  · exact h
  · exact applyChangeset_consistent _ _ h

theorem applyOk_consistent {ε : Type} (c : SparseChain P) (r : Res ε (ChangeSet P)) (h : Consistent c) :
    Consistent (c.applyOk r).1 := by
  unfold applyOk
  split
  · exact applyChangeset_consistent _ _ h
  · exact h

theorem step_consistent (c : SparseChain P) (op : Op P) (h : Consistent c) : Consistent (c.step op) := by
  cases op with
  | applyUpdate u ho => exact applyUpdate_consistent c u ho h
  | applyChangeset cs => exact applyChangeset_consistent c cs h
  | insertTx t p ho => exact applyOk_consistent c _ h
  | insertCheckpoint b ho => exact applyOk_consistent c _ h
  | invalidateCheckpoints f => exact applyChangeset_consistent c _ h
  | clearMempool => exact applyChangeset_consistent c _ h
  | setCheckpointLimit l => exact prune_consistent _ h

theorem run_consistent (c : SparseChain P) (ops : List (Op P)) (h : Consistent c) : Consistent (c.run ops) := by
  unfold run
  induction ops generalizing c with
  | nil => exact h
  | cons op ops ih => exact ih _ (step_consistent c op h)

theorem mem_txids {c : SparseChain P} {p : P} {t : Txid} :
    (p, t) ∈ c.txids ↔ OSet.mem c.orderedTxids (toLex (p, t)) = true := by
  unfold txids
  rw [List.mem_map]
  constructor
  · rintro ⟨k, hk, he⟩
    rw [← OSet.mem_toList, ← he]; exact hk
  · intro h
    exact ⟨toLex (p, t), OSet.mem_toList.2 h, rfl⟩

theorem positionsAgree_of_consistent {c : SparseChain P} (h : Consistent c) : PositionsAgree c := by
  have hs : c.txids.Pairwise (fun a b => a.1 < b.1 ∨ (a.1 = b.1 ∧ a.2 < b.2)) := by
    unfold txids
    rw [List.pairwise_map]
    refine (OSet.toList_sorted c.orderedTxids).imp ?_
    intro a b hab
    exact (Prod.Lex.lt_iff).1 hab
  refine ⟨fun p t => by rw [mem_txids]; exact h p t, hs, ?_⟩
  unfold List.Nodup
  rw [List.pairwise_map]
  refine (List.Pairwise.and_mem.1 hs).imp ?_
  rintro ⟨p, t⟩ ⟨p', t'⟩ ⟨ha, hb, hlt⟩ heq
  simp only at heq
  subst heq
  rw [mem_txids, h] at ha hb
  rw [ha] at hb; cases hb
  simp at hlt

theorem consistent_of_positionsAgree {c : SparseChain P} (h : PositionsAgree c) : Consistent c := by
  intro p t; rw [← mem_txids]; exact h.1 p t

/-! ### checkpoint vocabulary in terms of maps -/

theorem checkpointAt_eq {c : SparseChain P} {h : Nat} {b : BlockId} :
    c.checkpointAt h = some b ↔ b.height = h ∧ c.checkpoints.get h = some b.hash := by
  unfold checkpointAt
  cases b with | mk bh hash =>
  simp only [Option.map_eq_some_iff, BlockId.mk.injEq]
  constructor
  · rintro ⟨a, h1, rfl, rfl⟩; exact ⟨rfl, h1⟩
  · rintro ⟨rfl, h2⟩; exact ⟨hash, h2, rfl, rfl⟩

theorem hasCp_iff {c : SparseChain P} {h : Nat} : HasCp c h ↔ ∃ x, c.checkpoints.get h = some x := by
  unfold HasCp
  simp only [checkpointAt_eq]
  constructor
  · rintro ⟨b, _, h⟩; exact ⟨_, h⟩
  · rintro ⟨x, h2⟩; exact ⟨⟨h, x⟩, rfl, h2⟩

theorem agree_iff {c u : SparseChain P} {h : Nat} :
    Agree c u h ↔ ∃ x, u.checkpoints.get h = some x ∧ c.checkpoints.get h = some x := by
  unfold Agree
  simp only [checkpointAt_eq]
  constructor
  · rintro ⟨b, ⟨_, h1⟩, _, h2⟩; exact ⟨_, h2, h1⟩
  · rintro ⟨x, h2, h1⟩; exact ⟨⟨h, x⟩, ⟨rfl, h1⟩, rfl, h2⟩

theorem not_hasCp_iff {c : SparseChain P} {h : Nat} : ¬ HasCp c h ↔ c.checkpoints.get h = none := by
  rw [hasCp_iff]; cases c.checkpoints.get h <;> simp

theorem agreementPoint_some {c u : SparseChain P} {a : Nat} :
    agreementPoint c u = some a ↔ Agree c u a ∧ ∀ a', Agree c u a' → a' ≤ a := by
  unfold agreementPoint
  rw [OMap.find?_reverse_eq_last? u.checkpoints (fun k v => decide (c.checkpoints.get k = some v))]
  simp only [Option.map_eq_some_iff, agree_iff]
  constructor
  · rintro ⟨⟨k, v⟩, h, rfl⟩
    rw [OMap.last?_eq_some] at h
    simp only [OMap.get_filter, Option.filter_eq_some_iff, decide_eq_true_eq] at h
    refine ⟨⟨v, h.1⟩, ?_⟩
    rintro a' ⟨x, hx⟩
    exact h.2 a' x hx
  · rintro ⟨⟨x, hx⟩, h2⟩
    refine ⟨(a, x), ?_, rfl⟩
    rw [OMap.last?_eq_some]
    simp only [OMap.get_filter, Option.filter_eq_some_iff, decide_eq_true_eq]
    exact ⟨hx, fun k' v' h => h2 k' ⟨v', h⟩⟩

theorem agreementPoint_none {c u : SparseChain P} :
    agreementPoint c u = none ↔ ∀ a, ¬ Agree c u a := by
  constructor
  · intro h a ha
    unfold agreementPoint at h
    rw [Option.map_eq_none_iff, OMap.find?_reverse_eq_last? u.checkpoints (fun k v => decide (c.checkpoints.get k = some v)),
      OMap.last?_eq_none, OMap.eq_empty_iff] at h
    obtain ⟨x, h1, h2⟩ := agree_iff.1 ha
    have := h a
    rw [OMap.get_filter, h1] at this
    simp [h2] at this
  · intro h
    cases hc : agreementPoint c u with
    | none => rfl
    | some a => exact absurd (agreementPoint_some.1 hc).1 (h a)

theorem lastUpdateCp_some {u : SparseChain P} {t : Nat} : lastUpdateCp u = some t ↔ IsTip u t := by
  unfold lastUpdateCp IsTip
  simp only [hasCp_iff, Option.map_eq_some_iff]
  constructor
  · rintro ⟨⟨k, v⟩, h, rfl⟩
    rw [OMap.last?_eq_some] at h
    exact ⟨⟨v, h.1⟩, fun h' ⟨x, hx⟩ => h.2 h' x hx⟩
  · rintro ⟨⟨x, hx⟩, h2⟩
    exact ⟨(t, x), OMap.last?_eq_some.2 ⟨hx, fun k' v' h => h2 k' ⟨v', h⟩⟩, rfl⟩

theorem lastUpdateCp_none {u : SparseChain P} : lastUpdateCp u = none ↔ ∀ h, ¬ HasCp u h := by
  unfold lastUpdateCp
  rw [Option.map_eq_none_iff, OMap.last?_eq_none, OMap.eq_empty_iff]
  simp only [not_hasCp_iff]

theorem diverges_iff {c u : SparseChain P} :
    Diverges c u ↔ ¬ (lastUpdateCp u = none ∨ lastUpdateCp u = agreementPoint c u) := by
  constructor
  · rintro ⟨t, ht, hna⟩
    rw [lastUpdateCp_some.2 ht]
    rintro (h | h)
    · cases h
    · exact hna (agreementPoint_some.1 h.symm).1
  · intro h
    cases hl : lastUpdateCp u with
    | none => exact absurd (Or.inl hl) h
    | some t =>
      refine ⟨t, lastUpdateCp_some.1 hl, fun ha => h (Or.inr ?_)⟩
      rw [hl]; symm
      rw [agreementPoint_some]
      refine ⟨ha, fun a' ha' => ?_⟩
      obtain ⟨b, _, hb⟩ := ha'
      exact (lastUpdateCp_some.1 hl).2 a' ⟨b, hb⟩

theorem invalidLb_not_diverges {c u : SparseChain P} (h : ¬ Diverges c u) : invalidLb c u = u32Max := by
  rw [diverges_iff, not_not] at h
  unfold invalidLb; rw [if_pos h]

theorem invalidLb_diverges {c u : SparseChain P} (h : Diverges c u) (k : Nat) :
    invalidLb c u ≤ k ↔ AboveAgreement c u k := by
  rw [diverges_iff] at h
  unfold invalidLb; rw [if_neg h]
  unfold AboveAgreement
  cases ha : agreementPoint c u with
  | none =>
    rw [agreementPoint_none] at ha
    simp only [Nat.zero_le, true_iff]
    exact fun a h => absurd h (ha a)
  | some a =>
    rw [agreementPoint_some] at ha
    simp only []
    constructor
    · intro h a' ha'; have := ha.2 a' ha'; omega
    · intro h; exact h a ha.1

theorem invalidFrom_some {c u : SparseChain P} (hok : ∀ h, HasCp c h → h < u32Max) {f : Nat} :
    invalidFrom c u = some f ↔ FirstInvalid c u f := by
  have key : invalidFrom c u = some f ↔ (HasCp c f ∧ invalidLb c u ≤ f) ∧
      ∀ f', HasCp c f' → invalidLb c u ≤ f' → f ≤ f' := by
    unfold invalidFrom
    simp only [Option.map_eq_some_iff, hasCp_iff]
    constructor
    · rintro ⟨⟨k, v⟩, h, rfl⟩
      rw [OMap.first?_eq_some] at h
      simp only [OMap.get_filter, Option.filter_eq_some_iff, decide_eq_true_eq] at h
      exact ⟨⟨⟨v, h.1.1⟩, h.1.2⟩, fun f' ⟨x, hx⟩ hlb => h.2 f' x ⟨hx, hlb⟩⟩
    · rintro ⟨⟨⟨x, hx⟩, hlb⟩, h2⟩
      refine ⟨(f, x), ?_, rfl⟩
      rw [OMap.first?_eq_some]
      simp only [OMap.get_filter, Option.filter_eq_some_iff, decide_eq_true_eq]
      exact ⟨⟨hx, hlb⟩, fun k' v' h => h2 k' ⟨v', h.1⟩ h.2⟩
  rw [key]
  unfold FirstInvalid
  by_cases hd : Diverges c u
  · simp only [invalidLb_diverges hd, hd, true_and, and_assoc]
  · rw [invalidLb_not_diverges hd]
    constructor
    · rintro ⟨⟨h1, h2⟩, _⟩; have := hok f h1; omega
    · rintro ⟨h, _⟩; exact absurd h hd

theorem invalidFrom_none {c u : SparseChain P} (hok : ∀ h, HasCp c h → h < u32Max) :
    invalidFrom c u = none ↔ ∀ f, ¬ FirstInvalid c u f := by
  constructor
  · intro h f hf; rw [← invalidFrom_some hok, h] at hf; cases hf
  · intro h
    cases hc : invalidFrom c u with
    | none => rfl
    | some f => exact absurd ((invalidFrom_some hok).1 hc) (h f)

theorem determine_cases (c u : SparseChain P) (ho : HashOrder (Txid × P)) (hok : ∀ h, HasCp c h → h < u32Max) :
    (∃ f, Disconnected c u f ∧ c.determineChangeset u ho = .error (.notConnected f)) ∨
    ((∀ f, ¬ Disconnected c u f) ∧ c.determineChangeset u ho =
      (match findInconsistent c u ho with
      | some e => .error e
      | none =>
        .ok { checkpoints := u.checkpoints.entries.foldl (mergeCheckpoint c) (baseChangeset c u).checkpoints
              txids := (ho.perm u.txidToPos.entries).foldl (mergeTx c) (baseChangeset c u).txids })) := by
  unfold determineChangeset
  cases hf : invalidFrom c u with
  | none =>
    right
    refine ⟨fun f h => ?_, rfl⟩
    exact (invalidFrom_none hok).1 hf f h.1
  | some f =>
    have hfi := (invalidFrom_some hok).1 hf
    cases hcon : u.checkpoints.contains f with
    | true =>
      right
      refine ⟨?_, by simp [hcon]; rfl⟩
      rintro f' ⟨h1, h2⟩
      have := (invalidFrom_some hok).2 h1
      rw [hf] at this; cases this
      exact h2 (hasCp_iff.2 (OMap.contains_iff.1 hcon))
    | false =>
      left
      refine ⟨f, ⟨hfi, ?_⟩, by simp [hcon]⟩
      rw [not_hasCp_iff]
      exact OMap.contains_eq_false.1 hcon

theorem lt_invalidLb_iff {c u : SparseChain P} (hok : HeightsOk c) {t : Txid} {p : P}
    (hp : c.txPosition t = some p) :
    ChainPosition.height p < TxHeight.confirmed (invalidLb c u) ↔
      ∃ h, ChainPosition.height p = .confirmed h ∧ Settled c u h := by
  cases hh : ChainPosition.height p with
  | unconfirmed => simp
  | confirmed h =>
    have hlt := hok.2 t p h hp hh
    simp only [TxHeight.confirmed_lt, TxHeight.confirmed.injEq, exists_eq_left']
    unfold Settled
    by_cases hd : Diverges c u
    · have := invalidLb_diverges hd h
      rw [← not_le, this]
      simp only [AboveAgreement, not_forall, hd, true_implies]
      constructor
      · rintro ⟨a, ha, hl⟩; exact ⟨a, ha, by omega⟩
      · rintro ⟨a, ha, hl⟩; exact ⟨a, ha, by omega⟩
    · rw [invalidLb_not_diverges hd]; simp [hd, hlt]

theorem findInconsistent_some {c u : SparseChain P} {ho : HashOrder (Txid × P)} (hok : HeightsOk c)
    {e : UpdateError P} (h : findInconsistent c u ho = some e) :
    ∃ t p q, e = .txInconsistent t p q ∧ MovesSettled c u t p q := by
  unfold findInconsistent at h
  rw [List.findSome?_eq_some_iff] at h
  obtain ⟨l1, ⟨t, q⟩, l2, hl, hm, _⟩ := h
  have hmem : (t, q) ∈ u.txidToPos.entries := by
    rw [← ho.mem, hl]; simp
  simp only [] at hm
  split at hm
  · next p hp =>
    split at hm
    · next hc =>
      cases hm
      exact ⟨t, p, q, rfl, hp, OMap.mem_entries.1 hmem, hc.2, (lt_invalidLb_iff hok hp).1 hc.1⟩
    · cases hm
  · cases hm

theorem findInconsistent_none {c u : SparseChain P} {ho : HashOrder (Txid × P)} (hok : HeightsOk c) :
    findInconsistent c u ho = none ↔ ∀ t p q, ¬ MovesSettled c u t p q := by
  constructor
  · intro h t p q hm
    obtain ⟨h1, h2, h3, h4⟩ := hm
    unfold findInconsistent at h
    rw [List.findSome?_eq_none_iff] at h
    have hmem : (t, q) ∈ ho.perm u.txidToPos.entries := ho.mem.2 (OMap.mem_entries.2 h2)
    have := h _ hmem
    unfold txPosition at h1
    simp only [h1] at this
    rw [if_pos ⟨(lt_invalidLb_iff hok h1).2 h4, h3⟩] at this
    cases this
  · intro h
    cases hc : findInconsistent c u ho with
    | none => rfl
    | some e =>
      obtain ⟨t, p, q, _, hm⟩ := findInconsistent_some hok hc
      exact absurd hm (h t p q)

/-! ### the changesets -/

theorem mergeCheckpoint_get (c : SparseChain P) (m : OMap Nat (Option BlockHash)) (k : Nat) (v : BlockHash) (k' : Nat) :
    (mergeCheckpoint c m (k, v)).get k' =
      if k' = k then (if c.checkpoints.get k = some v then none else some (some v)) else m.get k' := by
  unfold mergeCheckpoint
  simp only []
  by_cases h : c.checkpoints.get k = some v
  · simp only [if_pos h, OMap.get_erase, OMap.get_insert]; split <;> rfl
  · simp only [if_neg h, OMap.get_insert]

theorem mergeTx_get (c : SparseChain P) (m : OMap Txid (Option P)) (k : Txid) (v : P) (k' : Txid) :
    (mergeTx c m (k, v)).get k' =
      if k' = k then (if c.txidToPos.get k = some v then none else some (some v)) else m.get k' := by
  unfold mergeTx
  simp only []
  by_cases h : c.txidToPos.get k = some v
  · simp only [if_pos h, OMap.get_erase, OMap.get_insert]; split <;> rfl
  · simp only [if_neg h, OMap.get_insert]

theorem foldl_mergeCheckpoint (c : SparseChain P) (u : OMap Nat BlockHash) (m : OMap Nat (Option BlockHash)) (k : Nat) :
    (u.entries.foldl (mergeCheckpoint c) m).get k = match u.get k with
      | some v => if c.checkpoints.get k = some v then none else some (some v)
      | none => m.get k := by
  rw [OMap.foldl_entries u (mergeCheckpoint c) (fun m k => m.get k)
    (fun k v _ => if c.checkpoints.get k = some v then none else some (some v)) m
    (by intro s k v k'; exact mergeCheckpoint_get c s k v k')]
  cases u.get k <;> rfl

theorem foldl_mergeTx (c : SparseChain P) (u : OMap Txid P) (ho : HashOrder (Txid × P))
    (m : OMap Txid (Option P)) (k : Txid) :
    ((ho.perm u.entries).foldl (mergeTx c) m).get k = match u.get k with
      | some v => if c.txidToPos.get k = some v then none else some (some v)
      | none => m.get k := by
  rw [OMap.foldl_perm u _ (ho.isPerm _) (mergeTx c) (fun m k => m.get k)
    (fun k v _ => if c.txidToPos.get k = some v then none else some (some v)) m
    (by intro s k v k'; exact mergeTx_get c s k v k')]
  cases u.get k <;> rfl

variable [LawfulChainPosition P]

theorem height_lt_of_lt {a b : P} (h : ChainPosition.height a < ChainPosition.height b) : a < b := by
  by_contra hc
  exact absurd (LawfulChainPosition.height_mono (not_lt.1 hc)) (not_le.2 h)

theorem heightLo_ge (b : Bound TxHeight) (p : P) (t : Txid) :
    (heightLo b : Bound (P ×ₗ Txid)).geB (toLex (p, t)) = b.geB (ChainPosition.height p) := by
  unfold heightLo mapHeightBound
  cases b with
  | unbounded => rfl
  | included h =>
    simp only [Bound.geB, ordIt]
    congr 1
    rw [Prod.Lex.toLex_le_toLex]
    simp only [eq_iff_iff]
    constructor
    · rintro (h1 | ⟨h1, _⟩)
      · have := LawfulChainPosition.height_mono (le_of_lt h1)
        rwa [LawfulChainPosition.height_min] at this
      · rw [← h1, LawfulChainPosition.height_min]
    · intro h1
      rcases lt_or_eq_of_le h1 with h1 | h1
      · left; apply height_lt_of_lt; rwa [LawfulChainPosition.height_min]
      · subst h1
        rcases lt_or_eq_of_le (LawfulChainPosition.min_le p) with h2 | h2
        · exact Or.inl h2
        · exact Or.inr ⟨h2, minTxid_le t⟩
  | excluded h =>
    simp only [Bound.geB, ordIt]
    congr 1
    rw [Prod.Lex.toLex_lt_toLex]
    simp only [eq_iff_iff]
    constructor
    · rintro (h1 | ⟨_, h1⟩)
      · by_contra hc
        rw [not_lt] at hc
        rcases lt_or_eq_of_le hc with h2 | h2
        · have : p < (ChainPosition.maxOrd h : P) := height_lt_of_lt (by rwa [LawfulChainPosition.height_max])
          exact absurd h1 (not_lt.2 this.le)
        · subst h2
          exact absurd h1 (not_lt.2 (LawfulChainPosition.le_max p))
      · exact absurd h1 (not_lt.2 (le_maxTxid t))
    · intro h1
      left; apply height_lt_of_lt; rwa [LawfulChainPosition.height_max]

theorem heightHi_le (b : Bound TxHeight) (p : P) (t : Txid) :
    (heightHi b : Bound (P ×ₗ Txid)).leB (toLex (p, t)) = b.leB (ChainPosition.height p) := by
  unfold heightHi mapHeightBound
  cases b with
  | unbounded => rfl
  | included h =>
    simp only [Bound.leB, ordIt]
    congr 1
    rw [Prod.Lex.toLex_le_toLex]
    simp only [eq_iff_iff]
    constructor
    · rintro (h1 | ⟨h1, _⟩)
      · have := LawfulChainPosition.height_mono (le_of_lt h1)
        rwa [LawfulChainPosition.height_max] at this
      · rw [h1, LawfulChainPosition.height_max]
    · intro h1
      rcases lt_or_eq_of_le h1 with h1 | h1
      · left; apply height_lt_of_lt; rwa [LawfulChainPosition.height_max]
      · subst h1
        rcases lt_or_eq_of_le (LawfulChainPosition.le_max p) with h2 | h2
        · exact Or.inl h2
        · exact Or.inr ⟨h2, le_maxTxid t⟩
  | excluded h =>
    simp only [Bound.leB, ordIt]
    congr 1
    rw [Prod.Lex.toLex_lt_toLex]
    simp only [eq_iff_iff]
    constructor
    · rintro (h1 | ⟨_, h1⟩)
      · by_contra hc
        rw [not_lt] at hc
        rcases lt_or_eq_of_le hc with h2 | h2
        · have : (ChainPosition.minOrd h : P) < p := height_lt_of_lt (by rwa [LawfulChainPosition.height_min])
          exact absurd h1 (not_lt.2 this.le)
        · subst h2
          exact absurd h1 (not_lt.2 (LawfulChainPosition.min_le p))
      · exact absurd h1 (not_lt.2 (minTxid_le t))
    · intro h1
      left; apply height_lt_of_lt; rwa [LawfulChainPosition.height_min]

theorem mem_rangeList {c : SparseChain P} {lo hi : Bound (P ×ₗ Txid)} {p : P} {t : Txid} :
    (p, t) ∈ c.rangeList lo hi ↔ OSet.mem c.orderedTxids (toLex (p, t)) = true ∧
      lo.geB (toLex (p, t)) = true ∧ hi.leB (toLex (p, t)) = true := by
  unfold rangeList
  rw [List.mem_map]
  constructor
  · rintro ⟨k, hk, he⟩
    rw [List.mem_filter, Bool.and_eq_true, OSet.mem_toList] at hk
    rw [← he]; exact hk
  · intro h
    refine ⟨toLex (p, t), ?_, rfl⟩
    rw [List.mem_filter, Bool.and_eq_true, OSet.mem_toList]; exact h

omit [LawfulChainPosition P] in
theorem invalidatePreview_cp (c : SparseChain P) (f h : Nat) :
    (c.invalidateCheckpointsPreview f).checkpoints.get h =
      if f ≤ h then (c.checkpoints.get h).map (fun _ => none) else none := by
  unfold invalidateCheckpointsPreview
  simp only [OMap.get_mapVal, OMap.get_filter]
  by_cases hf : f ≤ h
  · cases c.checkpoints.get h <;> simp [hf]
  · cases c.checkpoints.get h <;> simp [hf]

/-- a position whose transaction is displaced when blocks from `f` on are invalidated -/
def displaced (f : Nat) (p : P) : Bool :=
  match ChainPosition.height p with
  | .confirmed h => decide (f ≤ h)
  | .unconfirmed => false

theorem mem_invalidRange {c : SparseChain P} (hc : Consistent c) {f : Nat} {p : P} {t : Txid} :
    (p, t) ∈ c.rangeList (heightLo (.included (.confirmed f))) (heightHi (.excluded .unconfirmed)) ↔
      c.txidToPos.get t = some p ∧ displaced f p = true := by
  rw [mem_rangeList, hc, heightLo_ge, heightHi_le]
  unfold displaced
  cases ChainPosition.height p with
  | unconfirmed => simp [Bound.leB]
  | confirmed h => simp [Bound.leB, Bound.geB]

theorem invalidatePreview_tx (c : SparseChain P) (hc : Consistent c) (f : Nat) (t : Txid) :
    (c.invalidateCheckpointsPreview f).txids.get t =
      match c.txidToPos.get t with
      | some p => if displaced f p then some (some (ChainPosition.maxOrd .unconfirmed)) else none
      | none => none := by
  unfold invalidateCheckpointsPreview
  simp only []
  have hnot : (∀ p, c.txidToPos.get t = some p → displaced f p = false) →
      (OMap.ofList ((c.rangeList (heightLo (.included (.confirmed f)))
        (heightHi (.excluded .unconfirmed))).map
      (fun e => (e.2, some (ChainPosition.maxOrd .unconfirmed : P))))).get t = none := by
    intro h
    apply OMap.get_ofList_none
    intro v hv
    rw [List.mem_map] at hv
    obtain ⟨⟨p, t'⟩, h1, h2⟩ := hv
    cases h2
    rw [mem_invalidRange hc] at h1
    have := h p h1.1
    rw [h1.2] at this; cases this
  cases ht : c.txidToPos.get t with
  | none => apply hnot; rw [ht]; simp
  | some p =>
    cases hd : displaced f p with
    | false => rw [hnot (by rw [ht]; intro p' h; cases h; exact hd)]; simp [hd]
    | true =>
      simp only [hd, if_true]
      apply OMap.get_ofList_of_fun
      · intro v' hv'
        rw [List.mem_map] at hv'
        obtain ⟨⟨p, t'⟩, h1, h2⟩ := hv'
        cases h2; rfl
      · rw [List.mem_map]
        exact ⟨(p, t), (mem_invalidRange hc).2 ⟨ht, hd⟩, rfl⟩

theorem mem_mempoolRange {c : SparseChain P} (hc : Consistent c) {p : P} {t : Txid} :
    (p, t) ∈ c.rangeList (.included (toLex (ChainPosition.minOrd .unconfirmed, minTxid))) .unbounded ↔
      c.txidToPos.get t = some p ∧ ChainPosition.height p = .unconfirmed := by
  rw [mem_rangeList, hc]
  have := heightLo_ge (.included .unconfirmed) p t
  unfold heightLo mapHeightBound ordIt at this
  simp only at this
  rw [this]
  simp only [Bound.geB, Bound.leB, and_true, decide_eq_true_eq]
  cases ChainPosition.height p <;> simp

theorem clearPreview_tx (c : SparseChain P) (hc : Consistent c) (t : Txid) :
    c.clearMempoolPreview.txids.get t =
      match c.txidToPos.get t with
      | some p => if ChainPosition.height p = .unconfirmed then some none else none
      | none => none := by
  unfold clearMempoolPreview
  simp only []
  have hnot : (∀ p, c.txidToPos.get t = some p → ChainPosition.height p ≠ .unconfirmed) →
      (OMap.ofList ((c.rangeList (.included (toLex (ChainPosition.minOrd .unconfirmed, minTxid)))
      .unbounded).map (fun e => (e.2, (none : Option P))))).get t = none := by
    intro h
    apply OMap.get_ofList_none
    intro v hv
    rw [List.mem_map] at hv
    obtain ⟨⟨p, t'⟩, h1, h2⟩ := hv
    cases h2
    rw [mem_mempoolRange hc] at h1
    exact h p h1.1 h1.2
  cases ht : c.txidToPos.get t with
  | none => apply hnot; rw [ht]; simp
  | some p =>
    by_cases hd : ChainPosition.height p = .unconfirmed
    · simp only [if_pos hd]
      apply OMap.get_ofList_of_fun
      · intro v' hv'
        rw [List.mem_map] at hv'
        obtain ⟨⟨p, t'⟩, h1, h2⟩ := hv'
        cases h2; rfl
      · rw [List.mem_map]
        exact ⟨(p, t), (mem_mempoolRange hc).2 ⟨ht, hd⟩, rfl⟩
    · simp only [if_neg hd]
      apply hnot; rw [ht]; intro p' h; cases h; exact hd

end Verif.SparseChain
