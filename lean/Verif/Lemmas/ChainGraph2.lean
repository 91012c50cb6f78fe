import Verif.Lemmas.ChainGraph

set_option linter.unusedSectionVars false

namespace Verif
open Verif.Spec

namespace ChainGraph
variable {P T : Type} [LinearOrder P] [ChainPosition P] [LawfulChainPosition P]
  [AsTransaction T] [LawfulTx T] [LinearOrder T]
open TxGraph

theorem mem_newTxids {cg : ChainGraph P T} {cs : CGChangeSet P T} {t : Txid} {p : P} :
    (t, p) ∈ cg.newTxids cs ↔ cg.chain.txPosition t = none ∧ (cg.chain.applyChangeset cs.chain).txPosition t = some p := by
  have ha := SparseChain.applyChangeset_tx cg.chain cs.chain t
  unfold SparseChain.overlay at ha
  unfold newTxids SparseChain.txPosition
  rw [ha]
  simp only [List.mem_filter, List.mem_filterMap, Option.map_eq_some_iff, Prod.mk.injEq, Prod.exists]
  constructor
  · rintro ⟨⟨k, v, h1, q, rfl, rfl, rfl⟩, h2⟩
    rw [OMap.mem_entries] at h1
    rw [h1]
    exact ⟨Option.isNone_iff_eq_none.1 h2, rfl⟩
  · rintro ⟨h1, h2⟩
    refine ⟨?_, by simp [SparseChain.txPosition, h1]⟩
    cases hg : cs.chain.txids.get t with
    | none => rw [hg] at h2; simp only [h1] at h2; cases h2
    | some v =>
      rw [hg] at h2; simp only [] at h2
      exact ⟨t, v, OMap.mem_entries.2 hg, p, h2, rfl, rfl⟩

theorem fullTxOf_spec {cg : ChainGraph P T} (hk : KeysOk cg.graph) (cs : CGChangeSet P T) (t : Txid) :
    (∀ x, cg.fullTxOf cs t = some x → ∃ y, (cg.graph.applyAdditions cs.graph).getTx t = some y ∧ asTx y = asTx x) ∧
    (∀ y, (cg.graph.applyAdditions cs.graph).getTx t = some y → ∃ x, cg.fullTxOf cs t = some x ∧ asTx y = asTx x) := by
  have hid : ∀ x, cg.fullTxOf cs t = some x → (asTx x).txid = t := by
    intro x hx
    unfold fullTxOf at hx
    cases hg : cg.graph.getTx t with
    | some z => rw [hg] at hx; cases hx; exact hk _ _ hg
    | none =>
      rw [hg] at hx
      simpa using List.find?_some hx
  have hid2 : ∀ y, (cg.graph.applyAdditions cs.graph).getTx t = some y → (asTx y).txid = t := by
    intro y hy
    rw [applyAdditions_getTx] at hy
    cases hl : lastTx cs.graph.tx.toList t with
    | some z => rw [hl] at hy; cases hy; exact (lastTx_some hl).2
    | none => rw [hl] at hy; exact hk _ _ hy
  have hiff : cg.fullTxOf cs t = none ↔ (cg.graph.applyAdditions cs.graph).getTx t = none := by
    rw [applyAdditions_getTx]
    unfold fullTxOf
    simp only [Option.or_eq_none_iff, lastTx_none, List.find?_eq_none, decide_eq_true_eq]
    exact and_comm
  constructor
  · intro x hx
    cases hy : (cg.graph.applyAdditions cs.graph).getTx t with
    | none => rw [hiff.2 hy] at hx; cases hx
    | some y => exact ⟨y, rfl, LawfulTx.txid_inj _ _ (by rw [hid2 y hy, hid x hx])⟩
  · intro y hy
    cases hx : cg.fullTxOf cs t with
    | none => rw [hiff.1 hx] at hy; cases hy
    | some x => exact ⟨x, rfl, LawfulTx.txid_inj _ _ (by rw [hid2 y hy, hid x hx])⟩

/-- everything `fix_conflicts` does -/
theorem fix_spec {cg : ChainGraph P T} (hi : Inv cg) (cs : CGChangeSet P T) (so : SpendOrder)
    (hkeep : ∀ t, InChain cg.chain t → InChain (cg.chain.applyChangeset cs.chain) t)
    (hfull : ∀ t, ¬ InChain cg.chain t → InChain (cg.chain.applyChangeset cs.chain) t →
      ∃ x, (cg.graph.applyAdditions cs.graph).getTx t = some x) :
    let plain := cg.chain.applyChangeset cs.chain
    let D := Displaces cg.chain plain cg.graph (cg.graph.applyAdditions cs.graph)
    cg.fixConflicts cs so ≠ .panic ∧
    (∀ r, cg.fixConflicts cs so = .ok r →
      (∀ t c, D t c → IsUnconfirmed plain c) ∧ r.graph = cs.graph ∧ r.chain.checkpoints = cs.chain.checkpoints ∧
      (∀ c, (∃ t, D t c) → (cg.chain.applyChangeset r.chain).txPosition c = none) ∧
      (∀ c, (¬ ∃ t, D t c) → (cg.chain.applyChangeset r.chain).txPosition c = plain.txPosition c)) ∧
    (∀ e, cg.fixConflicts cs so = .err e →
      D e.updateTx.2 e.alreadyConfirmedTx.2 ∧
      cg.chain.txPosition e.alreadyConfirmedTx.2 = some e.alreadyConfirmedTx.1 ∧
      plain.txPosition e.updateTx.2 = some e.updateTx.1 ∧
      IsConfirmed plain e.alreadyConfirmedTx.2) := by
  intro plain D
  have hov : ∀ t, SparseChain.overlay cs.chain.txids cg.chain.txidToPos t = plain.txPosition t := fun t =>
    (SparseChain.applyChangeset_tx cg.chain cs.chain t).symm
  have hspec := fullTxOf_spec hi.wf.keys cs
  unfold fixConflicts
  cases hl : cg.chainConflicts cs so (cg.newTxids cs) with
  | none =>
    exfalso
    obtain ⟨⟨t, p⟩, ha, hn⟩ := chainConflicts_none hl
    obtain ⟨h1, h2⟩ := mem_newTxids.1 ha
    obtain ⟨x, hx⟩ := hfull t (by unfold InChain; simp [h1]) (by unfold InChain; rw [h2]; simp)
    obtain ⟨y, hy, -⟩ := (hspec t).2 x hx
    rw [hn] at hy; cases hy
  | some l =>
    have hmem : ∀ e, e ∈ l ↔ D e.1.2 e.2.2 ∧ cg.chain.txPosition e.2.2 = some e.2.1 ∧
        plain.txPosition e.1.2 = some e.1.1 := by
      intro e
      rw [mem_chainConflicts hl]
      constructor
      · rintro ⟨x, h1, h2, h3⟩
        obtain ⟨h4, h5⟩ := mem_newTxids.1 h1
        obtain ⟨h6, h7⟩ := (mem_conflictsIn hi.wf.spends).1 h3
        obtain ⟨y, hy, hxy⟩ := (hspec _).1 x h2
        refine ⟨⟨by unfold InChain; simp [h4], ?_, y, hy, by rw [hxy]; exact h7⟩, h6, h5⟩
        show InChain plain e.1.2
        unfold InChain; rw [h5]; simp
      · rintro ⟨⟨h1, h2, y, hy, hcc⟩, h3, h4⟩
        obtain ⟨x, hx, hxy⟩ := (hspec _).2 y hy
        refine ⟨x, mem_newTxids.2 ⟨by unfold InChain at h1; simpa using h1, h4⟩, hx, ?_⟩
        rw [hxy] at hcc
        exact (mem_conflictsIn hi.wf.spends).2 ⟨h3, hcc⟩
    have hb : ∀ e ∈ l, cg.chain.txidToPos.get e.2.2 = some e.2.1 := fun e he => ((hmem e).1 he).2.1
    have hex : ∀ c, (∃ t, D t c) ↔ ∃ e ∈ l, e.2.2 = c := by
      intro c
      constructor
      · rintro ⟨t, hD⟩
        obtain ⟨q, hq⟩ := Option.ne_none_iff_exists'.1 (show plain.txPosition t ≠ none from hD.2.1)
        obtain ⟨p, hp⟩ := Option.ne_none_iff_exists'.1 (show cg.chain.txPosition c ≠ none from hD.2.2.choose_spec.2.1)
        exact ⟨((q, t), (p, c)), (hmem _).2 ⟨hD, hp, hq⟩, rfl⟩
      · rintro ⟨e, he, rfl⟩
        exact ⟨e.1.2, ((hmem e).1 he).1⟩
    simp only []
    cases hr : resolve l cs.chain.txids with
    | error e =>
      obtain ⟨h1, p, k, h2, h3⟩ := resolve_error hb hr
      refine ⟨by simp, by simp, ?_⟩
      intro e' he'
      cases he'
      obtain ⟨h4, h5, h6⟩ := (hmem _).1 h1
      rw [hov] at h2
      exact ⟨h4, h5, h6, p, k, h2, h3⟩
    | ok m' =>
      obtain ⟨h1, h2, h3⟩ := resolve_ok hb hr
      refine ⟨by simp, ?_, by simp⟩
      intro r hr'
      cases hr'
      have hpos : ∀ c, (cg.chain.applyChangeset ⟨cs.chain.checkpoints, m'⟩).txPosition c =
          SparseChain.overlay m' cg.chain.txidToPos c := fun c => SparseChain.applyChangeset_tx cg.chain _ c
      refine ⟨?_, rfl, rfl, ?_, ?_⟩
      · intro t c hD
        obtain ⟨e, he, rfl⟩ := (hex c).1 ⟨t, hD⟩
        have hin : InChain cg.chain e.2.2 := by
          unfold InChain; rw [((hmem e).1 he).2.1]; simp
        obtain ⟨p, hp⟩ := Option.ne_none_iff_exists'.1 (show plain.txPosition e.2.2 ≠ none from hkeep _ hin)
        exact ⟨p, hp, h1 e he p (by rw [hov]; exact hp)⟩
      · intro c hc
        show (cg.chain.applyChangeset ⟨cs.chain.checkpoints, m'⟩).txPosition c = none
        rw [hpos]; exact h2 c ((hex c).1 hc)
      · intro c hc
        show (cg.chain.applyChangeset ⟨cs.chain.checkpoints, m'⟩).txPosition c = _
        rw [hpos, ← hov]
        unfold SparseChain.overlay
        simp only [h3 c (fun h => hc ((hex c).2 h))]

/-- the invariant survives a successful `fix_conflicts` + `apply_changeset` -/
theorem fix_inv {cg : ChainGraph P T} (hi : Inv cg) {cs r : CGChangeSet P T} {so : SpendOrder}
    (hkeep : ∀ t, InChain cg.chain t → InChain (cg.chain.applyChangeset cs.chain) t)
    (hfull : ∀ t, ¬ InChain cg.chain t → InChain (cg.chain.applyChangeset cs.chain) t →
      ∃ x, (cg.graph.applyAdditions cs.graph).getTx t = some x)
    (hnew : ∀ a b x y o, ¬ InChain cg.chain a → InChain (cg.chain.applyChangeset cs.chain) a →
      ¬ InChain cg.chain b → InChain (cg.chain.applyChangeset cs.chain) b →
      (cg.graph.applyAdditions cs.graph).getTx a = some x → (cg.graph.applyAdditions cs.graph).getTx b = some y →
      o ∈ (asTx x).input → o ∈ (asTx y).input → o.isNull = false → a = b)
    (h : cg.fixConflicts cs so = .ok r) : Inv (cg.applyChangeset r) := by
  obtain ⟨-, hok, -⟩ := fix_spec hi cs so hkeep hfull
  obtain ⟨h1, h2, h3, h4, h5⟩ := hok r h
  have hg : (cg.applyChangeset r).graph = cg.graph.applyAdditions cs.graph := by
    unfold applyChangeset; rw [h2]
  have hwf := applyAdditions_wf hi.wf cs.graph
  -- a transaction of the old chain has the same content afterwards
  have hold : ∀ t, InChain cg.chain t → ∃ x y, cg.graph.getTx t = some x ∧
      (cg.graph.applyAdditions cs.graph).getTx t = some y ∧ asTx y = asTx x := by
    intro t ht
    obtain ⟨x, hx⟩ := hi.full t ht
    have : ∃ y, (cg.graph.applyAdditions cs.graph).getTx t = some y := by
      rw [applyAdditions_getTx, hx]
      cases lastTx cs.graph.tx.toList t <;> simp
    obtain ⟨y, hy⟩ := this
    exact ⟨x, y, hx, hy, LawfulTx.txid_inj _ _ (by rw [hwf.keys _ _ hy, hi.wf.keys _ _ hx])⟩
  have hplain : ∀ t, InChain (cg.applyChangeset r).chain t →
      InChain (cg.chain.applyChangeset cs.chain) t ∧
      ¬ ∃ t', Displaces cg.chain (cg.chain.applyChangeset cs.chain) cg.graph (cg.graph.applyAdditions cs.graph) t' t := by
    intro t ht
    have hnd : ¬ ∃ t', Displaces cg.chain (cg.chain.applyChangeset cs.chain) cg.graph
        (cg.graph.applyAdditions cs.graph) t' t := fun hd => ht (h4 t hd)
    refine ⟨?_, hnd⟩
    unfold InChain
    rw [← h5 t hnd]; exact ht
  refine ⟨SparseChain.applyChangeset_consistent _ _ hi.cons, by rw [hg]; exact hwf, ?_, ?_⟩
  · intro t ht
    rw [hg]
    by_cases hin : InChain cg.chain t
    · obtain ⟨_, y, _, hy, _⟩ := hold t hin; exact ⟨y, hy⟩
    · exact hfull t hin (hplain t ht).1
  · intro a b x y o ha hb hx hy hox hoy hn
    rw [hg] at hx hy
    -- a new transaction and one of the old chain cannot share an input
    have mixed : ∀ a b x y, InChain (cg.applyChangeset r).chain a → InChain (cg.applyChangeset r).chain b →
        (cg.graph.applyAdditions cs.graph).getTx a = some x → (cg.graph.applyAdditions cs.graph).getTx b = some y →
        o ∈ (asTx x).input → o ∈ (asTx y).input → ¬ InChain cg.chain a → InChain cg.chain b → False := by
      intro a b x y ha hb hx hy hox hoy hina hinb
      apply (hplain b hb).2
      obtain ⟨y0, y', hy0, hy', he⟩ := hold b hinb
      rw [hy] at hy'; cases hy'
      obtain ⟨vin, hv⟩ := List.getElem?_of_mem hox
      refine ⟨a, hina, (hplain a ha).1, x, hx, hinb, .start ⟨vin, o, hv, ⟨y0, hy0, by rw [← he]; exact hoy, hn⟩, ?_⟩⟩
      rw [hwf.keys _ _ hx]
      rintro rfl; exact hina hinb
    by_cases hina : InChain cg.chain a
    · by_cases hinb : InChain cg.chain b
      · obtain ⟨x0, x', hx0, hx', hex⟩ := hold a hina
        obtain ⟨y0, y', hy0, hy', hey⟩ := hold b hinb
        rw [hx] at hx'; cases hx'
        rw [hy] at hy'; cases hy'
        exact hi.nods a b x0 y0 o hina hinb hx0 hy0 (by rw [← hex]; exact hox) (by rw [← hey]; exact hoy) hn
      · exact (mixed b a y x hb ha hy hx hoy hox hinb hina).elim
    · by_cases hinb : InChain cg.chain b
      · exact (mixed a b x y ha hb hx hy hox hoy hina hinb).elim
      · exact hnew a b x y o hina (hplain a ha).1 hinb (hplain b hb).1 hx hy hox hoy hn

/-! ### the two callers of `fix_conflicts` satisfy its conditions -/

theorem update_conditions {cg u : ChainGraph P T} (hi : Inv cg) (hu : Inv u) {o : Orders P T} {cs : ChangeSet P}
    (h : cg.chain.determineChangeset u.chain o.chain = .ok cs) :
    (∀ t, InChain cg.chain t → InChain (cg.chain.applyChangeset cs) t) ∧
    (∀ t, ¬ InChain cg.chain t → InChain (cg.chain.applyChangeset cs) t →
      InChain u.chain t ∧ ∃ x, u.graph.getTx t = some x ∧
        ∃ y, (cg.graph.applyAdditions (cg.graph.determineAdditions u.graph o.graph)).getTx t = some y ∧ asTx y = asTx x) := by
  refine ⟨fun t => (SparseChain.determine_pos hi.cons h t).2.2.1, ?_⟩
  intro t hn ht
  have hut : InChain u.chain t := by
    intro hu0
    exact ht ((SparseChain.determine_pos hi.cons h t).2.1 hu0 (by unfold InChain at hn; simpa using hn))
  obtain ⟨x, hx⟩ := hu.full t hut
  have hget := applyUpdate_getTx (g := cg.graph) hu.wf.keys o.graph t
  unfold TxGraph.applyUpdate at hget
  simp only [] at hget
  refine ⟨hut, x, hx, ?_⟩
  rw [hget, hx]
  cases hg : cg.graph.getTx t with
  | none => exact ⟨x, rfl, rfl⟩
  | some z => exact ⟨z, rfl, LawfulTx.txid_inj _ _ (by rw [hi.wf.keys _ _ hg, hu.wf.keys _ _ hx])⟩

theorem insertTx_conditions {cg : ChainGraph P T} (hi : Inv cg) {t : T} {pos : P} {ho : HashOrder (Txid × P)}
    {cs : ChangeSet P} (h : cg.chain.insertTxPreview (asTx t).txid pos ho = .ok cs) :
    (∀ k, InChain cg.chain k → InChain (cg.chain.applyChangeset cs) k) ∧
    (∀ k, ¬ InChain cg.chain k → InChain (cg.chain.applyChangeset cs) k →
      k = (asTx t).txid ∧ ∃ y, (cg.graph.applyAdditions (cg.graph.insertTxPreview t)).getTx k = some y) := by
  obtain ⟨hd, -⟩ := SparseChain.insertTxPreview_ok h
  refine ⟨fun k => (SparseChain.determine_pos hi.cons hd k).2.2.1, ?_⟩
  intro k hn hk
  have hkt : k = (asTx t).txid := by
    by_contra hne
    refine hk ((SparseChain.determine_pos hi.cons hd k).2.1 ?_ (by unfold InChain at hn; simpa using hn))
    unfold SparseChain.txPosition
    simp only [OMap.get_insert, if_neg hne, SparseChain.tipUpdate_tx, OMap.get_empty]
  refine ⟨hkt, ?_⟩
  have hget := insertTx_getTx cg.graph t k
  unfold TxGraph.insertTx at hget
  simp only [] at hget
  rw [hget, hkt]
  cases cg.graph.getTx (asTx t).txid <;> simp

theorem applyOk_inv {ε : Type} {cg : ChainGraph P T} (hi : Inv cg) {r : Res ε (CGChangeSet P T)}
    (h : ∀ cs, r = .ok cs → Inv (cg.applyChangeset cs)) : Inv (cg.applyOk r).1 := by
  unfold applyOk
  cases r with
  | ok cs => exact h cs rfl
  | err e => exact hi
  | panic => exact hi

/-- a chain-only changeset that keeps the set of transactions keeps the invariant -/
theorem chain_only_inv {cg : ChainGraph P T} (hi : Inv cg) {cs : ChangeSet P}
    (h : ∀ t, InChain (cg.chain.applyChangeset cs) t → InChain cg.chain t) :
    Inv (cg.applyChangeset ⟨cs, Additions.empty⟩) :=
  ⟨SparseChain.applyChangeset_consistent _ _ hi.cons, hi.wf, fun t ht => hi.full t (h t ht),
    fun a b x y o ha hb => hi.nods a b x y o (h a ha) (h b hb)⟩

theorem sparse_reachable_consistent {c : SparseChain P} (h : c.Reachable) : SparseChain.Consistent c := by
  obtain ⟨l, ops, rfl⟩ := h
  exact SparseChain.run_consistent _ _ (SparseChain.fromCheckpoints_consistent l)

theorem newLoop_conflict_free {c : SparseChain P} {g : TxGraph T} (hc : SparseChain.Consistent c) (hw : TxGraph.WF g)
    {so : SpendOrder} :
    (∀ e ∈ c.txids, ∀ x, g.getTx e.2 = some x → (conflictsIn c g so (asTx x)).head? = none) ↔ NoDoubleSpend c g := by
  have hp := SparseChain.positionsAgree_of_consistent hc
  constructor
  · intro h a b x y o ha hb hx hy hox hoy hn
    by_contra hne
    obtain ⟨p, hpa⟩ := Option.ne_none_iff_exists'.1 (show c.txPosition a ≠ none from ha)
    have := h (p, a) ((hp.1 p a).2 hpa) x hx
    rw [conflictsIn_head hw.spends] at this
    exact this b ⟨hb, (conflict_iff (c := c) hw.keys hx b).2 ⟨fun e => hne e.symm, y, o, hy, hox, hoy, hn⟩⟩
  · intro h e he x hx
    rw [conflictsIn_head hw.spends]
    rintro t ⟨h1, h2⟩
    obtain ⟨h3, y, o, h4, h5, h6, h7⟩ := (conflict_iff (c := c) hw.keys hx t).1 h2
    have hin : InChain c e.2 := by
      unfold InChain
      rw [(hp.1 e.1 e.2).1 he]; simp
    exact h3 (h t e.2 y x o h1 hin h4 hx h6 h5 h7)

theorem new_ok_iff {c : SparseChain P} {g : TxGraph T} (hc : SparseChain.Consistent c) (hw : TxGraph.WF g)
    {so : SpendOrder} {cg : ChainGraph P T} :
    new c g so = .ok cg ↔ cg = ⟨c, g⟩ ∧ AllFull c g ∧ NoDoubleSpend c g := by
  have hp := SparseChain.positionsAgree_of_consistent hc
  have hmiss : ∀ m, newLoop c g so c.txids OMap.empty = .ok m → (OMap.isEmpty m = true ↔ AllFull c g) := by
    intro m hm
    rw [OMap.isEmpty_iff]
    constructor
    · rintro rfl t ht
      obtain ⟨p, hpt⟩ := Option.ne_none_iff_exists'.1 (show c.txPosition t ≠ none from ht)
      cases hx : g.getTx t with
      | some x => exact ⟨x, rfl⟩
      | none =>
        have := ((newLoop_ok hm).2 t).2 (Or.inr ⟨⟨p, (hp.1 p t).2 hpt⟩, hx⟩)
        simp at this
    · intro hf
      apply OSet.ext_mem
      intro t
      rw [OSet.mem_empty, ← Bool.not_eq_true, (newLoop_ok hm).2 t]
      rintro (h | ⟨⟨p, h⟩, h'⟩)
      · simp at h
      · obtain ⟨x, hx⟩ := hf t (by unfold InChain; rw [(hp.1 p t).1 h]; simp)
        rw [hx] at h'; cases h'
  unfold new
  cases hm : newLoop c g so c.txids OMap.empty with
  | error e =>
    obtain ⟨a, b, x, h1, h2, h3, h4⟩ := newLoop_error hm
    simp only [reduceCtorEq, false_iff, not_and]
    intro _ _ hn
    have := (newLoop_conflict_free hc hw (so := so)).2 hn a h2 x h3
    rw [List.head?_eq_none_iff] at this
    rw [this] at h4; cases h4
  | ok m =>
    simp only []
    have h1 := (newLoop_conflict_free hc hw (so := so)).1 (newLoop_ok hm).1
    by_cases he : OMap.isEmpty m = true
    · rw [if_pos he]
      simp only [Except.ok.injEq]
      constructor
      · rintro rfl; exact ⟨rfl, (hmiss m hm).1 he, h1⟩
      · rintro ⟨rfl, _⟩; rfl
    · rw [if_neg he]
      simp only [reduceCtorEq, false_iff, not_and]
      intro _ hf
      exact absurd ((hmiss m hm).2 hf) he

theorem insertTx_inv {cg : ChainGraph P T} (hi : Inv cg) (t : T) (pos : P) (o : Orders P T) : Inv (cg.insertTx t pos o).1 := by
  apply applyOk_inv hi
  intro r hr
  unfold insertTxPreview at hr
  cases hcs : cg.chain.insertTxPreview (asTx t).txid pos o.chain with
  | panic => rw [hcs] at hr; cases hr
  | err e => rw [hcs] at hr; cases hr
  | ok cs =>
    rw [hcs] at hr
    simp only [] at hr
    cases hf : cg.fixConflicts ⟨cs, cg.graph.insertTxPreview t⟩ o.spend with
    | panic => rw [hf] at hr; cases hr
    | err e => rw [hf] at hr; cases hr
    | ok r' =>
      rw [hf] at hr; cases hr
      obtain ⟨h1, h2⟩ := insertTx_conditions hi hcs
      exact fix_inv hi h1 (fun k a b => (h2 k a b).2)
        (fun a b x y o ha1 ha2 hb1 hb2 _ _ _ _ _ => by rw [(h2 a ha1 ha2).1, (h2 b hb1 hb2).1]) hf

theorem applyUpdate_inv {cg u : ChainGraph P T} (hi : Inv cg) (hu : Inv u) (o : Orders P T) : Inv (cg.applyUpdate u o).1 := by
  apply applyOk_inv hi
  intro r hr
  unfold determineChangeset at hr
  cases hcs : cg.chain.determineChangeset u.chain o.chain with
  | error e => rw [hcs] at hr; cases hr
  | ok cs =>
    rw [hcs] at hr
    simp only [] at hr
    cases hf : cg.fixConflicts ⟨cs, cg.graph.determineAdditions u.graph o.graph⟩ o.spend with
    | panic => rw [hf] at hr; cases hr
    | err e => rw [hf] at hr; cases hr
    | ok r' =>
      rw [hf] at hr; cases hr
      obtain ⟨h1, h2⟩ := update_conditions hi hu hcs
      refine fix_inv hi h1 ?_ ?_ hf
      · intro t a b
        obtain ⟨_, _, _, y, hy, _⟩ := h2 t a b
        exact ⟨y, hy⟩
      · intro a b x y op ha1 ha2 hb1 hb2 hx hy hox hoy hn
        obtain ⟨a1, x0, a2, x', a3, a4⟩ := h2 a ha1 ha2
        obtain ⟨b1, y0, b2, y', b3, b4⟩ := h2 b hb1 hb2
        rw [show (cg.graph.applyAdditions _).getTx a = some x from hx] at a3; cases a3
        rw [show (cg.graph.applyAdditions _).getTx b = some y from hy] at b3; cases b3
        exact hu.nods a b x0 y0 op a1 b1 a2 b2 (by rw [← a4]; exact hox) (by rw [← b4]; exact hoy) hn

theorem insertTxout_inv {cg : ChainGraph P T} (hi : Inv cg) (op : OutPoint) (x : TxOut) : Inv (cg.insertTxout op x).1 := by
  have hch : ∀ t, ((cg.insertTxout op x).1.chain).txPosition t = cg.chain.txPosition t := by
    intro t
    have := SparseChain.applyChangeset_tx cg.chain ChangeSet.empty t
    exact this
  have hgt : ∀ t, (cg.insertTxout op x).1.graph.getTx t = cg.graph.getTx t := fun t =>
    insertTxout_getTx cg.graph op x t
  refine ⟨SparseChain.applyChangeset_consistent _ _ hi.cons, applyAdditions_wf hi.wf _, ?_, ?_⟩
  · intro t ht
    rw [hgt]
    apply hi.full
    unfold InChain at ht ⊢
    rw [← hch]; exact ht
  · intro a b y z o ha hb hy hz
    rw [hgt] at hy hz
    unfold InChain at ha hb
    rw [hch] at ha hb
    exact hi.nods a b y z o ha hb hy hz

theorem insertCheckpoint_inv {cg : ChainGraph P T} (hi : Inv cg) (b : BlockId) (o : Orders P T) :
    Inv (cg.insertCheckpoint b o).1 := by
  apply applyOk_inv hi
  intro r hr
  unfold insertCheckpointPreview at hr
  cases hcs : cg.chain.insertCheckpointPreview b o.chain with
  | panic => rw [hcs] at hr; cases hr
  | err e => rw [hcs] at hr; cases hr
  | ok cs =>
    rw [hcs] at hr; cases hr
    apply chain_only_inv hi
    intro t ht hn
    obtain ⟨hd, -⟩ := SparseChain.insertCheckpointPreview_ok hcs
    apply ht
    apply (SparseChain.determine_pos hi.cons hd t).2.1 _ hn
    unfold SparseChain.txPosition
    simp only [SparseChain.tipUpdate_tx, OMap.get_empty]

theorem invalidate_inv {cg : ChainGraph P T} (hi : Inv cg) (h : Nat) : Inv (cg.invalidateCheckpoints h).1 := by
  apply chain_only_inv hi
  intro t ht hn
  apply ht
  have := SparseChain.applyChangeset_tx cg.chain (cg.chain.invalidateCheckpointsPreview h) t
  unfold SparseChain.txPosition
  rw [this]
  unfold SparseChain.overlay
  cases hg : (cg.chain.invalidateCheckpointsPreview h).txids.get t with
  | none => exact hn
  | some v =>
    exfalso
    unfold SparseChain.invalidateCheckpointsPreview at hg
    have hm := OMap.ofList_mem hg
    rw [List.mem_map] at hm
    obtain ⟨e, he, heq⟩ := hm
    cases heq
    unfold SparseChain.rangeList at he
    rw [List.mem_map] at he
    obtain ⟨e', he', rfl⟩ := he
    have h3 := (hi.cons (ofLex e').1 (ofLex e').2).1 (OSet.mem_toList.1 (List.mem_filter.1 he').1)
    unfold SparseChain.txPosition at hn
    rw [h3] at hn; cases hn

theorem empty_inv : Inv (empty : ChainGraph P T) := by
  refine ⟨SparseChain.empty_consistent, TxGraph.empty_wf, ?_, ?_⟩
  · intro t ht; exact absurd rfl ht
  · intro a b x y o ha; exact absurd rfl ha

theorem reachable_inv {cg : ChainGraph P T} (h : Reachable cg) : Inv cg := by
  induction h with
  | empty => exact empty_inv
  | new so hc hg hn =>
    have h1 := sparse_reachable_consistent hc
    have h2 := TxGraph.reachable_wf hg
    obtain ⟨rfl, h3, h4⟩ := (new_ok_iff h1 h2).1 hn
    exact ⟨h1, h2, h3, h4⟩
  | insertTx t pos o _ ih => exact insertTx_inv ih t pos o
  | insertTxout op x _ ih => exact insertTxout_inv ih op x
  | insertCheckpoint b o _ ih => exact insertCheckpoint_inv ih b o
  | invalidateCheckpoints h _ ih => exact invalidate_inv ih h
  | @setCheckpointLimit cg l _ ih =>
    have hp := SparseChain.prune_tx ({ cg.chain with checkpointLimit := l } : SparseChain P)
    have hch : ∀ t, (cg.setCheckpointLimit l).chain.txPosition t = cg.chain.txPosition t := by
      intro t
      show (SparseChain.pruneCheckpoints _).txidToPos.get t = _
      rw [hp.1]; rfl
    refine ⟨SparseChain.prune_consistent _ ih.cons, ih.wf, ?_, ?_⟩
    · intro t ht
      exact ih.full t (by unfold InChain at ht ⊢; rw [← hch]; exact ht)
    · intro a b x y o ha hb
      unfold InChain at ha hb
      rw [hch] at ha hb
      exact ih.nods a b x y o ha hb
  | applyUpdate o _ _ ih1 ih2 => exact applyUpdate_inv ih1 ih2 o

end ChainGraph
end Verif
