import Verif.Props.InsertionGraph
import Verif.Props.Limits
import Verif.Props.Pruned

/-!
# C75 with a checkpoint limit

Inserting things one at a time into a chain that keeps only its newest `n` blocks (`n` at least one): the outcome is that of the
chain without the limit, cut down to its newest `n` blocks.  So the order of insertion is as irrelevant as without a limit.
-/

namespace Verif.Props
open Verif Verif.Spec
open Verif.SparseChain
variable {P : Type} [LinearOrder P] [ChainPosition P] [LawfulChainPosition P]

/-- a changeset that removes no block has the same effect before and after old blocks are forgotten -/
theorem limit_apply {u : SparseChain P} (hc : Consistent u) (hl : u.checkpointLimit = none) (n : Nat) (b : ChangeSet P)
    (hb : ∀ h, b.checkpoints.get h ≠ some none) :
    (u.setCheckpointLimit (some n)).applyChangeset b = (u.applyChangeset b).setCheckpointLimit (some n) := by
  have hE : ∀ l, PositionsAgree ({ SparseChain.empty with checkpointLimit := l } : SparseChain P) := fun l =>
    positionsAgree_of_consistent (c := ({ SparseChain.empty with checkpointLimit := l } : SparseChain P))
      (empty_consistent (P := P))
  have h1 := rebuild hc (show Limited u from fun m hm => by rw [hl] at hm; cases hm)
  rw [hl] at h1
  have h2 := applyChangeset_unlimited ({ SparseChain.empty with checkpointLimit := some n } : SparseChain P) u.initialChangeset
  have h3 := C07_append_only_adding ({ SparseChain.empty with checkpointLimit := some n } : SparseChain P) u.initialChangeset b (hE _) hb
  have h4 := C07_append_is_sequential ({ SparseChain.empty with checkpointLimit := none } : SparseChain P) u.initialChangeset b (hE _) rfl
  have h5 := applyChangeset_unlimited ({ SparseChain.empty with checkpointLimit := some n } : SparseChain P) (u.initialChangeset.append b)
  have hun : unlimited ({ SparseChain.empty with checkpointLimit := some n } : SparseChain P)
      = { SparseChain.empty with checkpointLimit := none } := rfl
  rw [hun, h1] at h2
  rw [hun, h4, h1] at h5
  rw [h2, h5] at h3
  exact h3.symm

/-- the changeset that only adds the entry -/
def entryChange : Entry P → ChangeSet P
  | .tx t p => { checkpoints := OMap.empty, txids := OMap.empty.insert t (some p) }
  | .block b => { checkpoints := OMap.empty.insert b.height (some b.hash), txids := OMap.empty }

theorem entryChange_adds (e : Entry P) (h : Nat) : (entryChange e).checkpoints.get h ≠ some none := by
  cases e with
  | tx t p => intro hh; exact absurd hh (by simp [entryChange])
  | block b =>
    simp only [entryChange, OMap.get_insert]
    by_cases hk : h = b.height
    · rw [if_pos hk]; simp
    · rw [if_neg hk]; simp

theorem with_eq {c c' : SparseChain P} {e : Entry P} (hc : Consistent c) (hl : c.checkpointLimit = none)
    (hc' : Consistent c') (hl' : c'.checkpointLimit = none) (hw : With c c' e) : c' = c.applyChangeset (entryChange e) := by
  refine chain_ext hc' (applyChangeset_consistent _ _ hc) (fun k => ?_) (fun t => ?_) (by rw [hl', applyChangeset_limit, hl])
  · unfold checkpointAt
    rw [applyChangeset_cp c _ hl]
    unfold overlay
    cases e with
    | tx t p => 
      have := hw.2.2 k
      unfold checkpointAt at this
      simpa [entryChange] using this
    | block b =>
      have := hw.1 k
      unfold checkpointAt at this
      rw [this]
      simp only [entryChange, OMap.get_insert]
      by_cases hk : k = b.height
      · subst hk; simp
      · rw [if_neg hk, if_neg hk]; simp
  · show c'.txidToPos.get t = (c.applyChangeset (entryChange e)).txidToPos.get t
    rw [applyChangeset_tx]
    unfold overlay
    cases e with
    | tx t' p =>
      simp only [entryChange, OMap.get_insert]
      by_cases ht : t = t'
      · subst ht; rw [if_pos rfl]; exact hw.1
      · rw [if_neg ht]; exact hw.2.1 t ht
    | block b => exact hw.2 t

/-- forgetting blocks changes nothing about what is accepted -/
theorem accepts_forgets {l c : SparseChain P} (h : Forgets l c) (e : Entry P) : Accepts l e ↔ Accepts c e := by
  have ht : ∀ k, IsTip l k ↔ IsTip c k := by
    intro k
    have aux : ∀ {x y : SparseChain P}, x.latestCheckpoint = y.latestCheckpoint → IsTip x k → IsTip y k := by
      intro x y hxy hx
      obtain ⟨b, hb⟩ := hx.1
      have hh := Electrum.checkpointAt_height hb
      subst hh
      have := Electrum.latestCheckpoint_eq.2 ⟨hx, hb⟩
      rw [hxy] at this
      exact (Electrum.latestCheckpoint_eq.1 this).1
    exact ⟨aux h.tip, aux h.tip.symm⟩
  cases e with
  | tx t p =>
    unfold Accepts TooHigh ConfirmedElsewhere
    simp only [ht, h.positions]
  | block b =>
    unfold Accepts TipConflicts
    simp only [h.tip]

theorem unlimited_limit (c : SparseChain P) : (unlimited c).checkpointLimit = none := rfl

theorem limited_self {c : SparseChain P} (hl : Limited c) : (unlimited c).setCheckpointLimit c.checkpointLimit = c := by
  have : (unlimited c).setCheckpointLimit c.checkpointLimit = c.pruneCheckpoints := rfl
  rw [this, prune_of_limited hl]

/-- one call on a chain with a limit: the call on the chain without, then the limit -/
theorem insertOne_unlimited (c : SparseChain P) (e : Entry P) (ho : HashOrder (Txid × P)) :
    insertOne c e ho = (insertOne (unlimited c) e ho).map (fun x => x.setCheckpointLimit c.checkpointLimit) := by
  cases e with
  | tx t p =>
    have hp : (unlimited c).insertTxPreview t p ho = c.insertTxPreview t p ho := rfl
    unfold insertOne insertTx
    simp only []
    rw [hp]
    cases c.insertTxPreview t p ho with
    | ok cs => simp only [applyOk, Option.map_some]; rw [applyChangeset_unlimited]
    | err x => rfl
    | panic => rfl
  | block b =>
    have hp : (unlimited c).insertCheckpointPreview b ho = c.insertCheckpointPreview b ho := rfl
    unfold insertOne insertCheckpoint
    simp only []
    rw [hp]
    cases c.insertCheckpointPreview b ho with
    | ok cs => simp only [applyOk, Option.map_some]; rw [applyChangeset_unlimited]
    | err x => rfl
    | panic => rfl

/-- one insertion commutes with forgetting all but the newest `n` blocks -/
theorem insertOne_limit {u : SparseChain P} (hs : Sane u) {n : Nat} (hn : n ≠ 0) (e : Entry P) (he : EntryOk e)
    (ho : HashOrder (Txid × P)) :
    insertOne (u.setCheckpointLimit (some n)) e ho = (insertOne u e ho).map (fun x => x.setCheckpointLimit (some n)) := by
  obtain ⟨hok, hc, hl⟩ := hs
  have hf : Forgets (u.setCheckpointLimit (some n)) u := C78_set_limit u hl (fun h hh => Nat.le_of_lt (hok.1 h hh)) n hn
  have hcl : Consistent (u.setCheckpointLimit (some n)) := step_consistent u (.setCheckpointLimit (some n)) hc
  have hlim : (u.setCheckpointLimit (some n)).checkpointLimit = some n := (prune_tx _).2.2
  have hs0 : Sane (unlimited (u.setCheckpointLimit (some n))) := by
    refine ⟨⟨fun h hh => ?_, fun t p h ht hh => ?_⟩, hcl, rfl⟩
    · obtain ⟨b, hb⟩ := hh
      exact hok.1 h ⟨b, hf.blocks h b hb⟩
    · exact hok.2 t p h ((hf.positions t).symm.trans ht) hh
  have hacc : Accepts (unlimited (u.setCheckpointLimit (some n))) e ↔ Accepts u e := by
    have h0 : Accepts (unlimited (u.setCheckpointLimit (some n))) e ↔ Accepts (u.setCheckpointLimit (some n)) e := by
      cases e <;> exact Iff.rfl
    exact h0.trans (accepts_forgets hf e)
  rw [insertOne_unlimited, hlim]
  rcases insertOne_spec hs0 e he ho with ⟨ha, a', h1, hs1, hw1⟩ | ⟨ha, h1⟩
  · rcases insertOne_spec ⟨hok, hc, hl⟩ e he ho with ⟨_, u', h2, hs2, hw2⟩ | ⟨hb, _⟩
    · rw [h1, h2]
      simp only [Option.map_some]
      rw [with_eq hs0.2.1 hs0.2.2 hs1.2.1 hs1.2.2 hw1, with_eq hc hl hs2.2.1 hs2.2.2 hw2]
      have h3 := applyChangeset_unlimited (u.setCheckpointLimit (some n)) (entryChange e)
      rw [hlim] at h3
      rw [← h3, limit_apply hc hl n _ (entryChange_adds e)]
    · exact absurd (hacc.1 ha) hb
  · rcases insertOne_spec ⟨hok, hc, hl⟩ e he ho with ⟨hb, _⟩ | ⟨_, h2⟩
    · exact absurd (hacc.2 hb) ha
    · rw [h1, h2]
      try rfl

theorem insertAll_limit {l : Entries P} : ∀ {u : SparseChain P}, Sane u → EntriesOk l → ∀ {n : Nat}, n ≠ 0 →
    insertAll (u.setCheckpointLimit (some n)) l = (insertAll u l).map (fun x => x.setCheckpointLimit (some n)) := by
  induction l with
  | nil => intro u _ _ n _; rfl
  | cons e l ih =>
    intro u hs he n hn
    obtain ⟨e1, e2⟩ := entriesOk_cons he
    unfold insertAll
    rw [insertOne_limit hs hn e.1 e1 e.2]
    rcases insertOne_spec hs e.1 e1 e.2 with ⟨_, u', h2, hs2, _⟩ | ⟨_, h2⟩
    · rw [h2]
      exact ih hs2 e2 hn
    · rw [h2]; rfl

/-- **C75** the same insertions into a chain with a limit of at least one (or none): accepted exactly when they are accepted
without the limit, and the chain afterwards is the one without the limit cut down to the newest blocks -/
theorem C75_with_limit (c : SparseChain P) (l : Entries P) (hok : HeightsOk c) (hp : PositionsAgree c)
    (hl : Limited c) (h0 : c.checkpointLimit ≠ some 0) (he : EntriesOk l) :
    insertAll c l = (insertAll (unlimited c) l).map (fun x => x.setCheckpointLimit c.checkpointLimit) := by
  have hs : Sane (unlimited c) := ⟨hok, consistent_of_positionsAgree hp, rfl⟩
  cases hn : c.checkpointLimit with
  | none =>
    have hu : unlimited c = c := by cases c; simp only at hn; subst hn; rfl
    rw [hu]
    cases h : insertAll c l with
    | none => rfl
    | some x =>
      have hx : x.checkpointLimit = none := by
        have aux : ∀ (l : Entries P) {c x : SparseChain P}, Sane c → EntriesOk l → insertAll c l = some x → x.checkpointLimit = none := by
          intro l
          induction l with
          | nil => intro c x hs _ h; cases h; exact hs.2.2
          | cons e l ih =>
            intro c x hs he h
            obtain ⟨e1, e2⟩ := entriesOk_cons he
            unfold insertAll at h
            rcases insertOne_spec hs e.1 e1 e.2 with ⟨_, u', h2, hs2, _⟩ | ⟨_, h2⟩
            · rw [h2] at h; exact ih hs2 e2 h
            · rw [h2] at h; cases h
        exact aux l (by rw [← hu]; exact hs) he h
      show some x = some (x.setCheckpointLimit none)
      rw [show x.setCheckpointLimit none = x by
        have : x.setCheckpointLimit none = ({ x with checkpointLimit := none } : SparseChain P) := prune_none _ rfl
        rw [this]; cases x; simp only at hx; subst hx; rfl]
  | some n =>
    have hself := limited_self hl
    rw [hn] at hself
    rw [← insertAll_limit hs he (fun hz => h0 (by rw [hn, hz])), hself]

/-- **C75** two callers of chains with a limit that insert the same things, in whatever order, have the same chain afterwards -/
theorem C75_order_any_limit (c c' d' : SparseChain P) (l m : Entries P) (hok : HeightsOk c) (hp : PositionsAgree c)
    (hl : Limited c) (h0 : c.checkpointLimit ≠ some 0) (he : EntriesOk l) (hco : Coherent l)
    (hsame : ∀ e, Inserts l e ↔ Inserts m e)
    (h : insertAll c l = some c') (hm : insertAll c m = some d') : c' = d' := by
  rw [C75_with_limit c l hok hp hl h0 he] at h
  rw [C75_with_limit c m hok hp hl h0 (entriesOk_congr hsame he)] at hm
  obtain ⟨x, hx, rfl⟩ := Option.map_eq_some_iff.1 h
  obtain ⟨y, hy, rfl⟩ := Option.map_eq_some_iff.1 hm
  have := C75_order (unlimited c) x y l m hok hp rfl he hco hsame hx hy
  rw [this]

/-- **C75** the chain with a limit after accepted insertions: the inserted transactions at their positions, and of the blocks the
chain had or got (`full` has them all) the newest `n` -/
theorem C75_result_limit (c c' : SparseChain P) (l : Entries P) (n : Nat) (hok : HeightsOk c) (hp : PositionsAgree c)
    (hl : Limited c) (hn : c.checkpointLimit = some n) (h0 : n ≠ 0) (he : EntriesOk l) (hco : Coherent l)
    (h : insertAll c l = some c') :
    (∃ full : SparseChain P, (∀ b, Inserts l (.block b) → full.checkpointAt b.height = some b) ∧
      (∀ k, (∀ b, Inserts l (.block b) → b.height ≠ k) → full.checkpointAt k = c.checkpointAt k) ∧
      ∀ k, c'.checkpointAt k = if cpsAbove full k < n then full.checkpointAt k else none) ∧
    (∀ t p, Inserts l (.tx t p) → c'.txPosition t = some p) ∧
    (∀ t, (∀ p, ¬ Inserts l (.tx t p)) → c'.txPosition t = c.txPosition t) := by
  rw [C75_with_limit c l hok hp hl (by rw [hn]; exact fun hh => h0 (Option.some.inj hh)) he, hn] at h
  obtain ⟨x, hx, rfl⟩ := Option.map_eq_some_iff.1 h
  obtain ⟨r1, r2, r3, r4⟩ := C75_result (unlimited c) x l hok hp rfl he hco hx
  obtain ⟨k1, k2, -⟩ := C11_set_limit_keeps_newest x n
  exact ⟨⟨x, r1, r2, k1⟩, fun t p ht => (k2 t).trans (r3 t p ht), fun t ht => (k2 t).trans (r4 t ht)⟩

/-- **C75** the recommended order also works for a chain with a limit -/
theorem C75_blocks_first_any_limit (c c' : SparseChain P) (l m : Entries P) (hok : HeightsOk c) (hp : PositionsAgree c)
    (hl : Limited c) (h0 : c.checkpointLimit ≠ some 0) (he : EntriesOk l) (hco : Coherent l)
    (hsame : ∀ e, Inserts l e ↔ Inserts m e) (h : insertAll c l = some c') (hf : BlocksFirst m) :
    insertAll c m = some c' := by
  rw [C75_with_limit c l hok hp hl h0 he] at h
  rw [C75_with_limit c m hok hp hl h0 (entriesOk_congr hsame he)]
  obtain ⟨x, hx, rfl⟩ := Option.map_eq_some_iff.1 h
  rw [C75_blocks_first (unlimited c) x l m hok hp rfl he hco hsame hx hf]
  rfl

/-- **C75** with a limit as without one: whether there is an order in which everything is accepted -/
theorem C75_acceptable_any_limit (c : SparseChain P) (l : Entries P) (hok : HeightsOk c) (hp : PositionsAgree c)
    (hl : Limited c) (h0 : c.checkpointLimit ≠ some 0) (he : EntriesOk l) (hco : Coherent l) :
    (∃ m c', m.Perm l ∧ insertAll c m = some c') ↔ Acceptable c l := by
  have hiff : Acceptable (unlimited c) l ↔ Acceptable c l := Iff.rfl
  rw [← hiff, ← C75_acceptable_iff (unlimited c) l hok hp rfl he hco]
  have hm : ∀ m, m.Perm l → EntriesOk m := fun m hm => entriesOk_congr (fun e => (inserts_perm hm e).symm) he
  constructor
  · rintro ⟨m, c', hml, h⟩
    rw [C75_with_limit c m hok hp hl h0 (hm m hml)] at h
    obtain ⟨x, hx, -⟩ := Option.map_eq_some_iff.1 h
    exact ⟨m, x, hml, hx⟩
  · rintro ⟨m, x, hml, hx⟩
    refine ⟨m, x.setCheckpointLimit c.checkpointLimit, hml, ?_⟩
    rw [C75_with_limit c m hok hp hl h0 (hm m hml), hx]
    rfl

/-- the standing assumptions on a chain with a limit -/
def SaneL (c : SparseChain P) : Prop := HeightsOk c ∧ Consistent c ∧ Limited c ∧ c.checkpointLimit ≠ some 0

/-- the positions after one entry -/
def WithPosition (c c' : SparseChain P) : Entry P → Prop
  | .tx t p => c'.txPosition t = some p ∧ ∀ t', t' ≠ t → c'.txPosition t' = c.txPosition t'
  | .block _ => ∀ t, c'.txPosition t = c.txPosition t

theorem insertOne_specL {c : SparseChain P} (hs : SaneL c) (e : Entry P) (he : EntryOk e) (ho : HashOrder (Txid × P)) :
    (∃ c', insertOne c e ho = some c' ∧ SaneL c' ∧ WithPosition c c' e) ∨ insertOne c e ho = none := by
  obtain ⟨hok, hc, hl, h0⟩ := hs
  have hu : Sane (unlimited c) := ⟨hok, hc, rfl⟩
  rw [insertOne_unlimited]
  rcases insertOne_spec hu e he ho with ⟨-, x, h1, ⟨k1, k2, k3⟩, hw⟩ | ⟨-, h1⟩
  · left
    rw [h1]
    have hpos : ∀ t, (x.setCheckpointLimit c.checkpointLimit).txPosition t = x.txPosition t := fun t => by
      unfold txPosition
      rw [show (x.setCheckpointLimit c.checkpointLimit).txidToPos = x.txidToPos from (prune_tx _).1]
    have hcp : ∀ k, HasCp (x.setCheckpointLimit c.checkpointLimit) k → HasCp x k := by
      rintro k ⟨b, hb⟩
      cases hn : c.checkpointLimit with
      | none =>
        rw [hn] at hb
        refine ⟨b, ?_⟩
        rw [← hb, show x.setCheckpointLimit none = ({ x with checkpointLimit := none } : SparseChain P) from prune_none _ rfl]
        rfl
      | some n =>
        rw [hn, (C11_set_limit_keeps_newest x n).1 k] at hb
        split at hb
        · exact ⟨b, hb⟩
        · cases hb
    refine ⟨_, rfl, ⟨⟨fun h hh => k1.1 h (hcp h hh), fun t p h ht hh => k1.2 t p h ((hpos t).symm.trans ht) hh⟩,
      step_consistent x (.setCheckpointLimit c.checkpointLimit) k2, prune_limited _, ?_⟩, ?_⟩
    · rw [show (x.setCheckpointLimit c.checkpointLimit).checkpointLimit = c.checkpointLimit from (prune_tx _).2.2]
      exact h0
    · cases e with
      | tx t p => exact ⟨(hpos t).trans hw.1, fun t' ht => (hpos t').trans (hw.2.1 t' ht)⟩
      | block b => exact fun t => (hpos t).trans (hw.2 t)
  · right
    rw [h1]; rfl

/-! ### chain graphs -/

section graph
open Verif.ChainGraph
variable {T : Type} [AsTransaction T] [LawfulTx T] [LinearOrder T]

/-- as `cgInsertAll_eq`, with a limit -/
theorem cgInsertAll_eqL {l : CGEntries P T} : ∀ {cg : ChainGraph P T}, Reachable cg → SaneL cg.chain →
    EntriesOk (onChain l) → NoSharedSpend cg l →
    cgInsertAll cg l = (insertAll cg.chain (onChain l)).map (fun ch => ⟨ch, growAll cg.graph l⟩) := by
  induction l with
  | nil => intro cg _ _ _ _; rfl
  | cons e l ih =>
    intro cg hr hs hok hns
    have hi := reachable_inv hr
    have hone := cgInsertOne_eq hr hs.1 e.1 e.2 (fun t p c y op he hc hy h1 h2 h3 =>
      hns.2 t c y op (insertsTx_cons.2 (Or.inl ⟨p, he⟩)) hc hy h1 h2 h3)
    have hok2 := entriesOk_cons (e := (e.1.entry, e.2.chain)) (l := onChain l) hok
    show (cgInsertOne cg e.1 e.2).bind _ = ((insertOne cg.chain e.1.entry e.2.chain).bind
      (fun c' => insertAll c' (onChain l))).map _
    rw [hone]
    rcases insertOne_specL hs e.1.entry hok2.1 e.2.chain with ⟨c1, hq, hs1, hw⟩ | hn
    · rw [hq] at hone
      have hr1 := cgInsertOne_reachable hr hone
      rw [hq]
      simp only [Option.map_some, Option.bind_some]
      refine (ih hr1 hs1 hok2.2 ⟨fun t t' op h h' => hns.1 t t' op (insertsTx_cons.2 (Or.inr h)) (insertsTx_cons.2 (Or.inr h')),
        fun t c y op ht hc hy h1 h2 h3 => ?_⟩).trans rfl
      have ht' : InsertsTx (e :: l) t := insertsTx_cons.2 (Or.inr ht)
      obtain ⟨e, o⟩ := e
      cases e with
      | block b =>
        have hc' : c1.txPosition c ≠ none := hc
        rw [hw c] at hc'
        exact hns.2 t c y op ht' hc' hy h1 h2 h3
      | tx t0 p0 =>
        have hy' : (cg.graph.insertTx t0).1.getTx c = some y := hy
        rw [TxGraph.insertTx_getTx] at hy'
        by_cases hct : c = (asTx t0).txid
        · have hcont : asTx y = asTx t0 := by
            rcases Option.or_eq_some_iff.1 hy' with h | ⟨-, h⟩
            · exact LawfulTx.txid_inj y t0 ((hi.wf.keys _ _ h).trans hct)
            · rw [if_pos hct] at h; cases h; rfl
          rw [hcont] at h2
          rw [hct]
          exact hns.1 t t0 op ht' (insertsTx_cons.2 (Or.inl ⟨p0, rfl⟩)) h1 h2 h3
        · have hc' : c1.txPosition c ≠ none := hc
          rw [hw.2 c hct] at hc'
          rcases Option.or_eq_some_iff.1 hy' with h | ⟨-, h⟩
          · exact hns.2 t c y op ht' hc' h h1 h2 h3
          · rw [if_neg hct] at h; cases h
    · rw [hn]; rfl

/-- **C75** (chain graphs with a limit) the order of insertion does not matter -/
theorem C75_graph_order_any_limit (cg c' d' : ChainGraph P T) (l m : CGEntries P T) (hr : Reachable cg) (hok : HeightsOk cg.chain)
    (hl : Limited cg.chain) (h0 : cg.chain.checkpointLimit ≠ some 0) (he : EntriesOk (onChain l)) (hco : Coherent (onChain l))
    (hns : NoSharedSpend cg l) (hv : OneVersion l) (hsame : SameThings l m)
    (h : cgInsertAll cg l = some c') (hm : cgInsertAll cg m = some d') : c' = d' := by
  have hi := reachable_inv hr
  have hs : SaneL cg.chain := ⟨hok, hi.cons, hl, h0⟩
  rw [cgInsertAll_eqL hr hs he hns] at h
  rw [cgInsertAll_eqL hr hs (entriesOk_congr (same_onChain hsame) he) (same_noSharedSpend hsame hns)] at hm
  obtain ⟨ch, hch, rfl⟩ := Option.map_eq_some_iff.1 h
  obtain ⟨dh, hdh, rfl⟩ := Option.map_eq_some_iff.1 hm
  rw [C75_order_any_limit cg.chain ch dh _ _ hok (SparseChain.positionsAgree_of_consistent hi.cons) hl h0 he hco
    (same_onChain hsame) hch hdh, growAll_same hi.wf hv (same_insertsTx hsame)]

/-- **C75** (chain graphs with a limit) the recommended order is accepted whenever some order is, with the same result -/
theorem C75_graph_blocks_first_any_limit (cg c' : ChainGraph P T) (l m : CGEntries P T) (hr : Reachable cg)
    (hok : HeightsOk cg.chain) (hl : Limited cg.chain) (h0 : cg.chain.checkpointLimit ≠ some 0) (he : EntriesOk (onChain l))
    (hco : Coherent (onChain l)) (hns : NoSharedSpend cg l) (hv : OneVersion l) (hsame : SameThings l m)
    (h : cgInsertAll cg l = some c') (hf : BlocksFirst (onChain m)) : cgInsertAll cg m = some c' := by
  have hi := reachable_inv hr
  have hs : SaneL cg.chain := ⟨hok, hi.cons, hl, h0⟩
  rw [cgInsertAll_eqL hr hs he hns] at h
  obtain ⟨ch, hch, rfl⟩ := Option.map_eq_some_iff.1 h
  rw [cgInsertAll_eqL hr hs (entriesOk_congr (same_onChain hsame) he) (same_noSharedSpend hsame hns),
    C75_blocks_first_any_limit cg.chain ch _ _ hok (SparseChain.positionsAgree_of_consistent hi.cons) hl h0 he hco
      (same_onChain hsame) hch hf, growAll_same hi.wf hv (same_insertsTx hsame)]
  rfl

end graph

/-! ### concrete lists -/

/-- `exChain` keeping its newest two blocks -/
def exShort : SparseChain TxHeight := exChain.setCheckpointLimit (some 2)

theorem exShort_forgets : Forgets exShort exChain :=
  C78_set_limit exChain (by decide) (fun h hh => Nat.le_of_lt (exChain_heightsOk.1 h hh)) 2 (by decide)

theorem exShort_heightsOk : HeightsOk exShort := by
  refine ⟨fun h hh => ?_, fun t p h ht hh => exChain_heightsOk.2 t p h ((exShort_forgets.positions t).symm.trans ht) hh⟩
  obtain ⟨b, hb⟩ := hh
  exact exChain_heightsOk.1 h ⟨b, exShort_forgets.blocks h b hb⟩

theorem exShort_positionsAgree : PositionsAgree exShort :=
  positionsAgree_of_consistent (step_consistent exChain (.setCheckpointLimit (some 2)) (consistent_of_positionsAgree exChain_positionsAgree))

/-- two orders, one result: the newest two blocks of the four -/
example : ((insertAll exShort exEntries).map fun c => (c.checkpoints.entries, c.txids)) =
    some ([(8, 28), (9, 19)], [(.confirmed 3, 7), (.confirmed 8, 8), (.confirmed 9, 9), (.unconfirmed, 6)]) ∧
    insertAll exShort [exEntries[3], exEntries[0], exEntries[2], exEntries[1]] = insertAll exShort exEntries := by decide

example : Acceptable exShort exEntries :=
  (C75_acceptable_any_limit exShort exEntries exShort_heightsOk exShort_positionsAgree (prune_limited _) (by decide) exEntries_ok
    exEntries_coherent).1 (by
      obtain ⟨c', h⟩ := Option.isSome_iff_exists.1 (show (insertAll exShort exEntries).isSome = true by decide)
      exact ⟨exEntries, c', List.Perm.refl _, h⟩)

/-- **C75** a limit of zero is different: no block is ever kept, so a confirmed transaction is refused however high the block
inserted before it -/
theorem C75_limit_zero : ∃ (c : SparseChain TxHeight) (l : Entries TxHeight), c.checkpointLimit = some 0 ∧
    (∃ c', insertAll (unlimited c) l = some c') ∧ ∀ m, m.Perm l → insertAll c m = none := by
  refine ⟨(SparseChain.empty : SparseChain TxHeight).setCheckpointLimit (some 0),
    [(.block ⟨9, 19⟩, HashOrder.id _), (.tx 9 (.confirmed 9), HashOrder.id _)], rfl,
    Option.isSome_iff_exists.1 (by decide), fun m hm => ?_⟩
  have h2 : m = [(.block ⟨9, 19⟩, HashOrder.id _), (.tx 9 (.confirmed 9), HashOrder.id _)] ∨
      m = [(.tx 9 (.confirmed 9), HashOrder.id _), (.block ⟨9, 19⟩, HashOrder.id _)] := by
    have hlen := hm.length_eq
    match m, hlen with
    | [x, y], _ =>
      have hx := hm.subset (show x ∈ [x, y] by simp)
      have hn := hm.symm.subset
      have h1 := hn (show _ ∈ _ from List.mem_cons_self)
      have h2 := hn (show _ ∈ _ from List.mem_cons_of_mem _ List.mem_cons_self)
      simp only [List.mem_cons, List.not_mem_nil, or_false] at hx h1 h2
      rcases hx with rfl | rfl
      · rcases h2 with h2 | h2
        · exact absurd (congrArg Prod.fst h2) (by simp)
        · left; rw [← h2]
      · rcases h1 with h1 | h1
        · exact absurd (congrArg Prod.fst h1) (by simp)
        · right; rw [← h1]
  rcases h2 with rfl | rfl <;> decide

section examples
open Verif.ChainGraph

/-- `exCG` keeping its newest block only -/
def exShortCG : ChainGraph TxHeight DemoTx := exCG.setCheckpointLimit (some 1)

example : ∀ c', cgInsertAll exShortCG exCGEntries = some c' →
    cgInsertAll exShortCG [exCGEntries[2], exCGEntries[0], exCGEntries[1]] = some c' → c'.chain.checkpoints.entries = [(9, 19)] := by
  intro c' h _
  have : (cgInsertAll exShortCG exCGEntries).map (fun c => c.chain.checkpoints.entries) = some [(9, 19)] := by decide
  rw [h] at this
  exact Option.some.inj this

example : ∃ c', cgInsertAll exShortCG exCGEntries = some c' ∧
    cgInsertAll exShortCG [exCGEntries[2], exCGEntries[0], exCGEntries[1]] = some c' := by
  obtain ⟨c', hc⟩ := Option.isSome_iff_exists.1 (show (cgInsertAll exShortCG exCGEntries).isSome = true by decide)
  obtain ⟨d', hd⟩ := Option.isSome_iff_exists.1 (show (cgInsertAll exShortCG
    [exCGEntries[2], exCGEntries[0], exCGEntries[1]]).isSome = true by decide)
  have hk := C11_set_limit_keeps_newest exCG.chain 1
  have hpos : ∀ t, exShortCG.chain.txPosition t = exCG.chain.txPosition t := hk.2.1
  refine ⟨c', hc, ?_⟩
  rw [hd, C75_graph_order_any_limit exShortCG c' d' exCGEntries [exCGEntries[2], exCGEntries[0], exCGEntries[1]]
    (exCG_reachable.setCheckpointLimit (some 1)) ⟨fun h hh => ?_, fun t p h ht hh => exCG_heightsOk.2 t p h ((hpos t).symm.trans ht) hh⟩
    (prune_limited _) (by decide) exCGEntries_coherent.2 exCGEntries_coherent.1
    ⟨exCGEntries_noSharedSpend.1, fun t c y op ht hc => exCGEntries_noSharedSpend.2 t c y op ht (by rw [← hpos c]; exact hc)⟩
    exCGEntries_oneVersion (fun e => ?_) hc hd]
  · obtain ⟨b, hb⟩ := hh
    have hb : (exCG.chain.setCheckpointLimit (some 1)).checkpointAt h = some b := hb
    rw [hk.1 h] at hb
    split at hb
    · exact exCG_heightsOk.1 h ⟨b, hb⟩
    · cases hb
  · have hp : ([exCGEntries[2], exCGEntries[0], exCGEntries[1]]).Perm exCGEntries :=
      List.perm_append_comm (l₁ := [exCGEntries[2]]) (l₂ := [exCGEntries[0], exCGEntries[1]])
    exact ⟨fun ⟨o, h⟩ => ⟨o, hp.mem_iff.2 h⟩, fun ⟨o, h⟩ => ⟨o, hp.mem_iff.1 h⟩⟩

end examples
end Verif.Props
