import Verif.Lemmas.Walk
import Verif.Props.Demo

/-!
# Properties C17–C23 (TxGraph)

`TxGraph.Reachable g`: `g` can be built with the public methods.  Collision resistance of txids is the class `LawfulTx T`.
-/

set_option linter.unusedSectionVars false

namespace Verif.Props
open Verif Verif.Spec Verif.TxGraph
variable {T : Type} [AsTransaction T] [LawfulTx T] [LinearOrder T]

/-- graph with 0, 1, 2 (conflicting with 1), 3 and 4; plus one partial output -/
def exGraph : TxGraph DemoTx := ((TxGraph.new [d 3, d 1, d 2, d 0, d 4]).insertTxout ⟨dExt, 0⟩ ⟨9, 8⟩).1

theorem new_reachable (l : List T) : Reachable (TxGraph.new l) := by
  unfold TxGraph.new
  have : ∀ (l : List T) (g : TxGraph T), Reachable g → Reachable (l.foldl (fun g t => (g.insertTx t).1) g) := by
    intro l
    induction l with
    | nil => intro g h; exact h
    | cons t l ih => intro g h; exact ih _ (.insertTx t h)
  exact this l _ .empty

theorem exGraph_reachable : Reachable exGraph := .insertTxout _ _ (new_reachable _)

/-! ## C17 -/

/-- **C17** merging is union on full transactions: exactly those of either graph, existing ones kept as they are -/
theorem C17_update_is_union (g u : TxGraph T) (hu : Reachable u) (ho : HashOrder (Txid × TxNode T)) (k : Txid) :
    (g.applyUpdate u ho).1.getTx k = (g.getTx k).or (u.getTx k) :=
  applyUpdate_getTx (reachable_wf hu).keys ho k

/-- **C17** no method drops or replaces a full transaction -/
theorem C17_tx_kept (g u : TxGraph T) (hu : Reachable u) (ho : HashOrder (Txid × TxNode T)) (k : Txid) (t : T)
    (h : g.getTx k = some t) (t' : T) (o : OutPoint) (x : TxOut) :
    (g.applyUpdate u ho).1.getTx k = some t ∧ (g.insertTx t').1.getTx k = some t ∧
    (g.insertTxout o x).1.getTx k = some t := by
  refine ⟨?_, ?_, ?_⟩
  · rw [C17_update_is_union g u hu, h]; rfl
  · rw [insertTx_getTx, h]; rfl
  · rw [insertTxout_getTx, h]

/-- **C17** an inserted transaction is there -/
theorem C17_insert_tx (g : TxGraph T) (t : T) : ((g.insertTx t).1.getTx (asTx t).txid).isSome = true ∧
    (g.getTx (asTx t).txid = none → (g.insertTx t).1.getTx (asTx t).txid = some t) := by
  rw [insertTx_getTx]
  cases g.getTx (asTx t).txid <;> simp

/-- **C17** which output is known after a merge: that of a full transaction if either graph has one, else the
update's, else the old one -/
theorem C17_txout_after_update (g u : TxGraph T) (hu : Reachable u) (ho : HashOrder (Txid × TxNode T)) (o : OutPoint) :
    (∀ t, (g.applyUpdate u ho).1.getTx o.txid = some t → (g.applyUpdate u ho).1.getTxout o = (asTx t).output[o.vout.val]?) ∧
    ((g.applyUpdate u ho).1.getTx o.txid = none →
      (g.applyUpdate u ho).1.getTxout o = (u.getTxout o).or (g.getTxout o)) := by
  constructor
  · intro t h; exact getTxout_whole h
  · intro h
    rw [C17_update_is_union g u hu] at h
    rw [applyUpdate_getTxout (reachable_wf hu).keys, h]

/-- wherever the update knows the output, or the whole transaction, it agrees with `g` -/
def AgreesOnOutputs (g u : TxGraph T) : Prop :=
  ∀ o x, g.getTxout o = some x → u.getTxout o = some x ∨ (u.getTxout o = none ∧ u.getTx o.txid = none)

/-- **C17** known outputs are kept by every update that does not contradict them -/
theorem C17_txout_kept (g u : TxGraph T) (hu : Reachable u) (ho : HashOrder (Txid × TxNode T))
    (ha : AgreesOnOutputs g u) (o : OutPoint) (x : TxOut) (h : g.getTxout o = some x) :
    (g.applyUpdate u ho).1.getTxout o = some x := by
  rw [applyUpdate_getTxout (reachable_wf hu).keys]
  cases hg : g.getTx o.txid with
  | some t => simp only [Option.some_or]; rw [← getTxout_whole hg]; exact h
  | none =>
    cases hu' : u.getTx o.txid with
    | some t =>
      simp only [Option.none_or]
      rw [← getTxout_whole hu']
      rcases ha o x h with h1 | h1
      · exact h1
      · rw [hu'] at h1; cases h1.2
    | none =>
      simp only [Option.none_or]
      rcases ha o x h with h1 | h1
      · rw [h1]; rfl
      · rw [h1.1]; simpa using h

/-- without that hypothesis a known output can vanish: inserting a transaction replaces outputs claimed for it -/
theorem C17_false_txout_dropped : ∃ (g : TxGraph DemoTx) (t : DemoTx) (o : OutPoint), Reachable g ∧
    g.getTxout o ≠ none ∧ (g.insertTx t).1.getTxout o = none :=
  ⟨(TxGraph.empty.insertTxout ⟨dId 1, 5⟩ ⟨1, 1⟩).1, d 1, ⟨dId 1, 5⟩, .insertTxout _ _ .empty, by decide, by decide⟩

example : exGraph.getTx (dId 4) = some (d 4) ∧ exGraph.getTx dExt = none ∧ exGraph.getTxout ⟨dExt, 0⟩ = some ⟨9, 8⟩ := by
  decide
example : (exGraph.applyUpdate (TxGraph.new [d 6, ⟨1, 1⟩]) (HashOrder.rev _)).1.getTx (dId 6) = some (d 6) ∧
    (exGraph.applyUpdate (TxGraph.new [d 6, ⟨1, 1⟩]) (HashOrder.rev _)).1.getTx (dId 1) = some (d 1) := by decide

/-! ## C18 -/

/-- `m` holds exactly what the graphs of `S` hold -/
structure MergedOf (m : TxGraph T) (S : List (TxGraph T)) : Prop where
  wf : WF m
  tx : ∀ k t, m.getTx k = some t ↔ ∃ u ∈ S, u.getTx k = some t
  txout : ∀ o, m.getTx o.txid = none → ∀ x, m.getTxout o = some x ↔ ∃ u ∈ S, u.getTxout o = some x

theorem MergedOf.unique {m m' : TxGraph T} {S S' : List (TxGraph T)} (h : MergedOf m S) (h' : MergedOf m' S')
    (hm : ∀ u, u ∈ S ↔ u ∈ S') : m = m' := by
  have htx : ∀ k, m.getTx k = m'.getTx k := by
    intro k
    apply Option.ext; intro t
    rw [h.tx, h'.tx]; simp only [hm]
  apply ext_of_wf h.wf h'.wf htx
  intro o
  cases hx : m.getTx o.txid with
  | some t => rw [getTxout_whole hx, getTxout_whole (by rw [← htx]; exact hx)]
  | none =>
    apply Option.ext; intro x
    rw [h.txout o hx, h'.txout o (by rw [← htx]; exact hx)]; simp only [hm]

theorem MergedOf.step {m u : TxGraph T} {S : List (TxGraph T)} (h : MergedOf m S) (hu : Reachable u)
    (hc : ∀ v ∈ S, Compatible v u) (ho : HashOrder (Txid × TxNode T)) :
    MergedOf (m.applyUpdate u ho).1 (u :: S) := by
  have huw := reachable_wf hu
  have htx : ∀ k t, (m.applyUpdate u ho).1.getTx k = some t ↔ ∃ v ∈ u :: S, v.getTx k = some t := by
    intro k t
    rw [applyUpdate_getTx huw.keys]
    simp only [List.mem_cons, exists_eq_or_imp]
    rw [← h.tx]
    cases hm : m.getTx k with
    | none => simp
    | some t' =>
      simp only [Option.some_or, Option.some.injEq]
      constructor
      · intro h; exact Or.inr h
      · rintro (h1 | h1)
        · obtain ⟨v, hv, hvt⟩ := (h.tx k t').1 hm
          exact (hc v hv).1 k t' t hvt h1
        · exact h1
  refine ⟨applyAdditions_wf h.wf _, htx, ?_⟩
  intro o hn x
  have hn2 := hn
  rw [applyUpdate_getTx huw.keys] at hn
  have hmn : m.getTx o.txid = none := by cases hx : m.getTx o.txid <;> simp_all
  rw [applyUpdate_getTxout huw.keys, hn]
  simp only [List.mem_cons, exists_eq_or_imp]
  rw [← h.txout o hmn]
  cases hux : u.getTxout o with
  | none => simp
  | some y =>
    simp only [Option.some_or, Option.some.injEq]
    constructor
    · intro h; exact Or.inl h
    · rintro (h1 | h1)
      · exact h1
      · obtain ⟨v, hv, hvt⟩ := (h.txout o hmn x).1 h1
        exact ((hc v hv).2 o x y hvt hux).symm

/-- merge a sequence of updates into an empty graph -/
def mergeAll (l : List (TxGraph T × HashOrder (Txid × TxNode T))) : TxGraph T :=
  l.foldl (fun g u => (g.applyUpdate u.1 u.2).1) TxGraph.empty

theorem mergeAll_merged (l : List (TxGraph T × HashOrder (Txid × TxNode T)))
    (hr : ∀ u ∈ l, Reachable u.1) (hc : ∀ u ∈ l, ∀ v ∈ l, Compatible u.1 v.1) :
    ∃ S, (∀ u, u ∈ S ↔ u ∈ l.map Prod.fst) ∧ MergedOf (mergeAll l) S := by
  have gen : ∀ (l : List (TxGraph T × HashOrder (Txid × TxNode T))) (m : TxGraph T) (S : List (TxGraph T)),
      MergedOf m S → (∀ u ∈ l, Reachable u.1) → (∀ u ∈ l, ∀ v ∈ l, Compatible u.1 v.1) →
      (∀ u ∈ l, ∀ v ∈ S, Compatible v u.1) →
      ∃ S', (∀ u, u ∈ S' ↔ u ∈ S ∨ u ∈ l.map Prod.fst) ∧
        MergedOf (l.foldl (fun g u => (g.applyUpdate u.1 u.2).1) m) S' := by
    intro l
    induction l with
    | nil => intro m S hm _ _ _; exact ⟨S, by simp, hm⟩
    | cons e l ih =>
      intro m S hm hr hc hs
      have h1 := hm.step (hr e (by simp)) (fun v hv => hs e (by simp) v hv) e.2
      obtain ⟨S', h2, h3⟩ := ih _ _ h1 (fun u hu => hr u (by simp [hu]))
        (fun u hu v hv => hc u (by simp [hu]) v (by simp [hv]))
        (fun u hu v hv => by
          rcases List.mem_cons.1 hv with rfl | hv
          · exact hc e (by simp) u (by simp [hu])
          · exact hs u (by simp [hu]) v hv)
      refine ⟨S', ?_, h3⟩
      intro u; rw [h2]
      simp only [List.mem_cons, List.map_cons]
      tauto
  obtain ⟨S, h1, h2⟩ := gen l TxGraph.empty [] ⟨empty_wf, by intro k t; simp [getTx, TxGraph.empty],
    by intro o _ x; simp [getTxout, TxGraph.empty]⟩ hr hc (by simp)
  exact ⟨S, by simpa using h1, h2⟩

/-- **C18** the merge of compatible graphs depends neither on their order, nor on repetitions, nor on hash orders -/
theorem C18_merge_order_irrelevant (l l' : List (TxGraph T × HashOrder (Txid × TxNode T)))
    (hr : ∀ u ∈ l, Reachable u.1) (hc : ∀ u ∈ l, ∀ v ∈ l, Compatible u.1 v.1)
    (hm : ∀ u, u ∈ l.map Prod.fst ↔ u ∈ l'.map Prod.fst) : mergeAll l = mergeAll l' := by
  have hsub : ∀ u ∈ l', ∃ v ∈ l, v.1 = u.1 := by
    intro u hu
    have := (hm u.1).2 (List.mem_map.2 ⟨u, hu, rfl⟩)
    obtain ⟨v, hv, he⟩ := List.mem_map.1 this
    exact ⟨v, hv, he⟩
  obtain ⟨S, h1, h2⟩ := mergeAll_merged l hr hc
  obtain ⟨S', h1', h2'⟩ := mergeAll_merged l'
    (fun u hu => by obtain ⟨v, hv, he⟩ := hsub u hu; rw [← he]; exact hr v hv)
    (fun u hu w hw => by
      obtain ⟨v, hv, he⟩ := hsub u hu; obtain ⟨v', hv', he'⟩ := hsub w hw
      rw [← he, ← he']; exact hc v hv v' hv')
  apply h2.unique h2'
  intro u; rw [h1, h1', hm]

/-- **C18** two updates commute on any starting graph they are compatible with -/
theorem C18_updates_commute (g a b : TxGraph T) (hg : Reachable g) (ha : Reachable a) (hb : Reachable b)
    (h1 : Compatible g a) (h2 : Compatible g b) (h3 : Compatible a b) (o1 o2 o3 o4 : HashOrder (Txid × TxNode T)) :
    ((g.applyUpdate a o1).1.applyUpdate b o2).1 = ((g.applyUpdate b o3).1.applyUpdate a o4).1 := by
  have hsymm : ∀ {x y : TxGraph T}, Compatible x y → Compatible y x := fun h =>
    ⟨fun k t t' h1 h2 => (h.1 k t' t h2 h1).symm, fun o x x' h1 h2 => (h.2 o x' x h2 h1).symm⟩
  have hm : MergedOf g [g] := ⟨reachable_wf hg, by simp, by simp⟩
  have e1 := (hm.step ha (by simpa using h1) o1).step hb (by simpa using ⟨h3, h2⟩) o2
  have e2 := (hm.step hb (by simpa using h2) o3).step ha (by simpa using ⟨hsymm h3, h1⟩) o4
  exact e1.unique e2 (by intro u; simp; tauto)

/-- with two witness versions of the same transaction the first one wins, so order matters: the hypothesis is needed -/
theorem C18_first_version_wins : ∃ a b : TxGraph DemoTx, Reachable a ∧ Reachable b ∧
    (a.applyUpdate b (HashOrder.id _)).1 ≠ (b.applyUpdate a (HashOrder.id _)).1 :=
  ⟨TxGraph.new [⟨1, 0⟩], TxGraph.new [⟨1, 1⟩], new_reachable _, new_reachable _, by decide⟩

theorem compatible_of_lists (l l' : List DemoTx) (h : ∀ t ∈ l, t.wit = 0) (h' : ∀ t ∈ l', t.wit = 0) :
    Compatible (TxGraph.new l) (TxGraph.new l') := by
  have key : ∀ (l : List DemoTx) (g : TxGraph DemoTx), (∀ k t, g.getTx k = some t → t.wit = 0) →
      (∀ o x, g.getTxout o = some x → ∃ t, g.getTx o.txid = some t) → WF g → (∀ t ∈ l, t.wit = 0) →
      let m := l.foldl (fun g t => (g.insertTx t).1) g
      (∀ k t, m.getTx k = some t → t.wit = 0) ∧ (∀ o x, m.getTxout o = some x → ∃ t, m.getTx o.txid = some t) ∧ WF m := by
    intro l
    induction l with
    | nil => intro g h1 h2 h3 _; exact ⟨h1, h2, h3⟩
    | cons a l ih =>
      intro g h1 h2 h3 h4
      apply ih
      · intro k t ht
        rw [insertTx_getTx] at ht
        cases hg : g.getTx k with
        | some t' => rw [hg] at ht; simp at ht; subst ht; exact h1 k _ hg
        | none =>
          rw [hg] at ht; simp only [Option.none_or] at ht
          split at ht
          · cases ht; exact h4 a (by simp)
          · cases ht
      · intro o x hx
        beta_reduce at hx ⊢
        rw [insertTx_eq_update, applyUpdate_getTxout (single_whole_keysOk a)] at hx
        rw [insertTx_eq_update, applyUpdate_getTx (single_whole_keysOk a)]
        cases hor : (g.getTx o.txid).or ((⟨OMap.empty.insert (asTx a).txid (.whole a), OMap.empty⟩ : TxGraph DemoTx).getTx o.txid) with
        | some t => exact ⟨t, rfl⟩
        | none =>
          rw [hor] at hx
          simp only at hx
          have hgn : g.getTx o.txid = none := by cases h : g.getTx o.txid <;> simp_all
          have : (⟨OMap.empty.insert (asTx a).txid (.whole a), OMap.empty⟩ : TxGraph DemoTx).getTxout o = none := by
            have hn : (⟨OMap.empty.insert (asTx a).txid (.whole a), OMap.empty⟩ : TxGraph DemoTx).getTx o.txid = none := by
              rw [hgn] at hor; simpa using hor
            rw [single_whole_getTx] at hn
            unfold getTxout
            simp only [OMap.get_insert]
            split at hn
            · cases hn
            · next hne => simp only [if_neg hne, OMap.get_empty]
          rw [this] at hx
          simp only [Option.none_or] at hx
          obtain ⟨t, ht⟩ := h2 o x hx
          rw [hgn] at ht; cases ht
      · exact applyAdditions_wf h3 _
      · intro t ht; exact h4 t (by simp [ht])
  have e1 : (∀ k t, (TxGraph.new l).getTx k = some t → t.wit = 0) ∧
      (∀ o x, (TxGraph.new l).getTxout o = some x → ∃ t, (TxGraph.new l).getTx o.txid = some t) ∧ WF (TxGraph.new l) :=
    key l TxGraph.empty (by intro k t h; cases h) (by intro o x h; cases h) empty_wf h
  have e2 : (∀ k t, (TxGraph.new l').getTx k = some t → t.wit = 0) ∧
      (∀ o x, (TxGraph.new l').getTxout o = some x → ∃ t, (TxGraph.new l').getTx o.txid = some t) ∧ WF (TxGraph.new l') :=
    key l' TxGraph.empty (by intro k t h; cases h) (by intro o x h; cases h) empty_wf h'
  have hv : ∀ k t t', (TxGraph.new l).getTx k = some t → (TxGraph.new l').getTx k = some t' → t = t' := by
    intro k t t' h1 h2
    have w1 := e1.1 k t h1
    have w2 := e2.1 k t' h2
    have i1 := e1.2.2.keys k t h1
    have i2 := e2.2.2.keys k t' h2
    have : t.num = t'.num := by
      apply dId_inj
      rw [← demoTx_txid, ← demoTx_txid]
      show (asTx t).txid = (asTx t').txid
      rw [i1, i2]
    cases t; cases t'; simp_all
  refine ⟨hv, ?_⟩
  intro o x x' h1 h2
  obtain ⟨t, ht⟩ := e1.2.1 o x h1
  obtain ⟨t', ht'⟩ := e2.2.1 o x' h2
  have heq := hv _ _ _ ht ht'
  rw [getTxout_whole ht] at h1
  rw [getTxout_whole ht', ← heq, h1] at h2
  cases h2; rfl

example : ∃ l l' : List (TxGraph DemoTx × HashOrder (Txid × TxNode DemoTx)),
    (∀ u ∈ l, Reachable u.1) ∧ (∀ u ∈ l, ∀ v ∈ l, Compatible u.1 v.1) ∧ l.length ≠ l'.length ∧
    mergeAll l = mergeAll l' ∧ mergeAll l ≠ TxGraph.empty := by
  refine ⟨[(TxGraph.new [d 0, d 1], HashOrder.id _), (TxGraph.new [d 2, d 1], HashOrder.rev _)],
    [(TxGraph.new [d 2, d 1], HashOrder.id _), (TxGraph.new [d 0, d 1], HashOrder.rev _),
     (TxGraph.new [d 2, d 1], HashOrder.id _)], ?_, ?_, by decide, by decide, by decide⟩
  · intro u hu; simp at hu; rcases hu with rfl | rfl <;> exact new_reachable _
  · intro u hu v hv
    simp at hu hv
    rcases hu with rfl | rfl <;> rcases hv with rfl | rfl <;> exact compatible_of_lists _ _ (by decide) (by decide)

/-! ## C19 -/

/-- **C19** the additions hold exactly what the update has and the graph lacks -/
theorem C19_additions_exact (g u : TxGraph T) (hu : Reachable u) (ho : HashOrder (Txid × TxNode T)) :
    (∀ t, (g.determineAdditions u ho).tx.mem t = true ↔
      u.getTx (asTx t).txid = some t ∧ g.getTx (asTx t).txid = none) ∧
    (∀ o x, (g.determineAdditions u ho).txout.get o = some x ↔
      u.getTx o.txid = none ∧ u.getTxout o = some x ∧ g.getTx o.txid = none ∧ g.getTxout o ≠ some x) := by
  constructor
  · intro t
    rw [determine_tx]
    constructor
    · rintro ⟨k, h1, h2⟩
      have := (reachable_wf hu).keys k t h1
      rw [this]; exact ⟨h1, h2⟩
    · rintro ⟨h1, h2⟩; exact ⟨_, h1, h2⟩
  · intro o x
    rw [determine_txout]
    constructor
    · intro h
      split at h
      · next hc =>
        refine ⟨hc.2.1, h, hc.1, ?_⟩
        rw [← h]; exact hc.2.2
      · cases h
    · rintro ⟨h1, h2, h3, h4⟩
      rw [if_pos ⟨h3, h1, by rw [h2]; exact h4⟩, h2]

/-- **C19** the direct calls are the previews followed by `apply_additions` -/
theorem C19_preview (g u : TxGraph T) (ho : HashOrder (Txid × TxNode T)) (t : T) (o : OutPoint) (x : TxOut) :
    g.applyUpdate u ho = (g.applyAdditions (g.determineAdditions u ho), g.determineAdditions u ho) ∧
    g.insertTx t = (g.applyAdditions (g.insertTxPreview t), g.insertTxPreview t) ∧
    g.insertTxout o x = (g.applyAdditions (g.insertTxoutPreview o x), g.insertTxoutPreview o x) := ⟨rfl, rfl, rfl⟩

/-- **C19** the additions do not depend on `HashMap` iteration order -/
theorem C19_order_irrelevant (g u : TxGraph T) (ho ho' : HashOrder (Txid × TxNode T)) :
    g.determineAdditions u ho = g.determineAdditions u ho' := by
  have h1 : (g.determineAdditions u ho).tx = (g.determineAdditions u ho').tx := by
    apply OSet.ext_mem; intro t
    rw [Bool.eq_iff_iff, determine_tx, determine_tx]
  have h2 : (g.determineAdditions u ho).txout = (g.determineAdditions u ho').txout := by
    apply OMap.ext_get; intro o; rw [determine_txout, determine_txout]
  cases hx : g.determineAdditions u ho; cases hy : g.determineAdditions u ho'
  rw [hx, hy] at h1 h2; simp only at h1 h2; subst h1; subst h2; rfl

theorem additions_eq_empty {a : Additions T} (h1 : ∀ t, a.tx.mem t = false) (h2 : ∀ o, a.txout.get o = none) :
    a = Additions.empty := by
  have e1 : a.tx = OMap.empty := OSet.ext_mem (fun t => by rw [h1]; rfl)
  have e2 : a.txout = OMap.empty := OMap.eq_empty_iff.2 h2
  cases a; simp only at e1 e2; subst e1; subst e2; rfl

/-- **C19** after an update the same update adds nothing -/
theorem C19_update_idempotent (g u : TxGraph T) (hu : Reachable u) (ho ho' : HashOrder (Txid × TxNode T)) :
    (g.applyUpdate u ho).1.applyUpdate u ho' = ((g.applyUpdate u ho).1, Additions.empty) := by
  have huw := reachable_wf hu
  have : (g.applyUpdate u ho).1.determineAdditions u ho' = Additions.empty := by
    apply additions_eq_empty
    · intro t
      rw [← Bool.not_eq_true, determine_tx]
      rintro ⟨k, h1, h2⟩
      rw [applyUpdate_getTx huw.keys, h1] at h2
      cases hg : g.getTx k <;> simp [hg] at h2
    · intro o
      rw [determine_txout]
      split
      · next hc =>
        obtain ⟨h1, h2, h3⟩ := hc
        rw [applyUpdate_getTx huw.keys] at h1
        rw [applyUpdate_getTxout huw.keys, h1] at h3
        cases hx : u.getTxout o with
        | none => rfl
        | some x => rw [hx] at h3; simp at h3
      · rfl
  unfold TxGraph.applyUpdate at this ⊢
  simp only at this ⊢
  rw [this]; rfl

/-- **C19** inserting what is already there adds nothing -/
theorem C19_insert_existing (g : TxGraph T) (t : T) (h : g.getTx (asTx t).txid ≠ none) :
    g.insertTxPreview t = Additions.empty ∧
    ∀ o x, o.txid = (asTx t).txid → g.insertTxoutPreview o x = Additions.empty := by
  constructor
  · apply additions_eq_empty
    · intro t'
      rw [← Bool.not_eq_true]; unfold insertTxPreview; rw [determine_tx]
      rintro ⟨k, h1, h2⟩
      rw [single_whole_getTx] at h1
      split at h1
      · next he => rw [he] at h2; exact h h2
      · cases h1
    · intro o
      unfold insertTxPreview; rw [determine_txout, single_whole_getTx]
      by_cases he : o.txid = (asTx t).txid
      · simp [he]
      · have hn : (⟨OMap.empty.insert (asTx t).txid (.whole t), OMap.empty⟩ : TxGraph T).getTxout o = none := by
          unfold getTxout; simp only [OMap.get_insert, if_neg he, OMap.get_empty]
        rw [hn]; exact ite_self _
  · intro o x ho
    apply additions_eq_empty
    · intro t'
      rw [← Bool.not_eq_true]; unfold insertTxoutPreview; rw [determine_tx]
      rintro ⟨k, h1, h2⟩
      rw [single_partial_getTx] at h1; cases h1
    · intro o'
      unfold insertTxoutPreview; rw [determine_txout, single_partial_getTxout]
      by_cases he : o' = o
      · rw [if_neg]
        rintro ⟨h1, -⟩
        rw [he, ho] at h1; exact h h1
      · rw [if_neg he]; exact ite_self _

/-- The documentation of `insert_txout_preview` (tx_graph.rs:327-328: empty "if the `outpoint` … already existed")
does not hold: another output at a known outpoint replaces it. -/
theorem C19_doc_existing_outpoint_replaced : ∃ (g : TxGraph DemoTx) (o : OutPoint) (x : TxOut), Reachable g ∧
    g.getTxout o ≠ none ∧ g.insertTxoutPreview o x ≠ Additions.empty ∧ (g.insertTxout o x).1.getTxout o = some x ∧
    g.getTxout o ≠ some x :=
  ⟨exGraph, ⟨dExt, 0⟩, ⟨1, 1⟩, exGraph_reachable, by decide, by decide, by decide, by decide⟩

omit [LawfulTx T] in
theorem lastTx_sorted (s : OSet T) (k : Txid) (t : T) : lastTx s.toList k = some t ↔
    s.mem t = true ∧ (asTx t).txid = k ∧ ∀ t', s.mem t' = true → (asTx t').txid = k → t' ≤ t := by
  have gen : ∀ (l : List T), l.Pairwise (· < ·) → (lastTx l k = some t ↔
      t ∈ l ∧ (asTx t).txid = k ∧ ∀ t' ∈ l, (asTx t').txid = k → t' ≤ t) := by
    intro l
    induction l with
    | nil => intro _; simp [lastTx]
    | cons a l ih =>
      intro hp
      rw [List.pairwise_cons] at hp
      rw [lastTx_cons]
      have ih' := ih hp.2
      cases hl : lastTx l k with
      | some x =>
        rw [hl] at ih'
        simp only [Option.some_or]
        rw [ih']
        have hx := lastTx_some hl
        simp only [List.mem_cons, forall_eq_or_imp]
        constructor
        · rintro ⟨h1, h2, h3⟩
          exact ⟨Or.inr h1, h2, fun _ => le_of_lt (hp.1 t h1), h3⟩
        · rintro ⟨h1, h2, h3, h4⟩
          refine ⟨?_, h2, h4⟩
          rcases h1 with rfl | h1
          · exact absurd (h4 x hx.1 hx.2) (not_le.2 (hp.1 x hx.1))
          · exact h1
      | none =>
        have hn := lastTx_none.1 hl
        simp only [Option.none_or]
        constructor
        · intro h
          split at h
          · next he =>
            cases h
            exact ⟨by simp, he.symm, fun t' ht' hk => by
              rcases List.mem_cons.1 ht' with rfl | ht'
              · exact le_refl _
              · exact absurd hk (hn t' ht')⟩
          · cases h
        · rintro ⟨h1, h2, h3⟩
          rcases List.mem_cons.1 h1 with rfl | h1
          · rw [if_pos h2.symm]
          · exact absurd h2 (hn t h1)
  rw [gen s.toList s.toList_sorted]
  simp only [OSet.mem_toList]

omit [LawfulTx T] [AsTransaction T] in
theorem mem_append_tx (a b : Additions T) (t : T) : (a.append b).tx.mem t = (a.tx.mem t || b.tx.mem t) := by
  unfold Additions.append OSet.mem OMap.contains
  simp only [OMap.get_append]
  cases OMap.get b.tx t <;> cases OMap.get a.tx t <;> rfl

/-- **C19** `append` composes: applying `a.append(b)` is applying `a` then `b`, provided `a` and `b` do not carry
different versions of the same transaction -/
theorem C19_append_is_sequential (g : TxGraph T) (hg : Reachable g) (a b : Additions T)
    (hv : ∀ t t', a.tx.mem t = true → b.tx.mem t' = true → (asTx t).txid = (asTx t').txid → t = t') :
    g.applyAdditions (a.append b) = (g.applyAdditions a).applyAdditions b := by
  have hw := reachable_wf hg
  have hlast : ∀ k, lastTx (a.append b).tx.toList k = (lastTx b.tx.toList k).or (lastTx a.tx.toList k) := by
    intro k
    cases hb : lastTx b.tx.toList k with
    | some t =>
      simp only [Option.some_or]
      rw [lastTx_sorted] at hb ⊢
      refine ⟨by rw [mem_append_tx, hb.1]; simp, hb.2.1, ?_⟩
      intro t' ht' hk
      rw [mem_append_tx, Bool.or_eq_true] at ht'
      rcases ht' with h | h
      · exact le_of_eq (hv t' t h hb.1 (by rw [hk, hb.2.1]))
      · exact hb.2.2 t' h hk
    | none =>
      simp only [Option.none_or]
      have hbn := lastTx_none.1 hb
      apply Option.ext; intro t
      rw [lastTx_sorted, lastTx_sorted]
      simp only [mem_append_tx, Bool.or_eq_true]
      have hno : ∀ t', b.tx.mem t' = true → (asTx t').txid = k → False := fun t' h1 h2 =>
        hbn t' (OSet.mem_toList.2 h1) h2
      constructor
      · rintro ⟨h1, h2, h3⟩
        refine ⟨h1.resolve_right (fun h => hno t h h2), h2, fun t' h h' => h3 t' (Or.inl h) h'⟩
      · rintro ⟨h1, h2, h3⟩
        exact ⟨Or.inl h1, h2, fun t' h h' => h3 t' (h.resolve_right (fun h => hno t' h h')) h'⟩
  have htx : ∀ k, (g.applyAdditions (a.append b)).getTx k = ((g.applyAdditions a).applyAdditions b).getTx k := by
    intro k
    rw [applyAdditions_getTx, applyAdditions_getTx, applyAdditions_getTx, hlast, Option.or_assoc]
  apply ext_of_wf (applyAdditions_wf hw _) (applyAdditions_wf (applyAdditions_wf hw _) _) htx
  intro o
  cases hx : (g.applyAdditions (a.append b)).getTx o.txid with
  | some t => rw [getTxout_whole hx, getTxout_whole (by rw [← htx]; exact hx)]
  | none =>
    have hx2 : ((g.applyAdditions a).applyAdditions b).getTx o.txid = none := by rw [← htx]; exact hx
    have hx3 : (g.applyAdditions a).getTx o.txid = none := by
      rw [applyAdditions_getTx] at hx2
      cases h : (g.applyAdditions a).getTx o.txid with
      | none => rfl
      | some t => rw [h] at hx2; cases h2 : lastTx b.tx.toList o.txid <;> simp [h2] at hx2
    rw [applyAdditions_getTxout_none hx, applyAdditions_getTxout_none hx2, applyAdditions_getTxout_none hx3]
    unfold Additions.append
    simp only [OMap.get_append, Option.or_assoc]

/-- the proviso is needed: with two witness versions the version kept depends on how the additions are grouped -/
theorem C19_append_versions_differ : ∃ (g : TxGraph DemoTx) (a b : Additions DemoTx), Reachable g ∧
    g.applyAdditions (a.append b) ≠ (g.applyAdditions a).applyAdditions b :=
  ⟨TxGraph.empty, ⟨OSet.add OMap.empty ⟨1, 1⟩, OMap.empty⟩, ⟨OSet.add OMap.empty ⟨1, 0⟩, OMap.empty⟩, .empty, by decide⟩

example : (exGraph.determineAdditions (TxGraph.new [d 6, d 1]) (HashOrder.id _)).tx.toList = [d 6] := by decide

/-! ## C20 -/

/-- **C20** `outspends(o)` is exactly the set of full transactions of the graph spending `o` -/
theorem C20_outspends_exact (g : TxGraph T) (hg : Reachable g) (o : OutPoint) (t : Txid) :
    (g.outspends o).mem t = true ↔ SpentByInGraph g o t := (reachable_wf hg).spends.1 o t

/-- **C20** `tx_outspends(txid)` lists, in ascending order, exactly the spent outputs of `txid` with their spenders -/
theorem C20_tx_outspends_exact (g : TxGraph T) (hg : Reachable g) (k : Txid) :
    (∀ v s, (v, s) ∈ g.txOutspends k ↔ (∃ t, SpentByInGraph g ⟨k, v⟩ t) ∧ s = g.outspends ⟨k, v⟩) ∧
    ((g.txOutspends k).map Prod.fst).Pairwise (· < ·) := by
  have hw := reachable_wf hg
  constructor
  · intro v s
    unfold txOutspends
    rw [List.mem_map]
    constructor
    · rintro ⟨⟨o, s'⟩, h, he⟩
      obtain ⟨ot, ov⟩ := o
      cases he
      obtain ⟨rfl, hs⟩ := mem_spendsRange.1 h
      have hne := hw.spends.2 _ _ hs
      have hos : g.outspends ⟨ot, ov⟩ = s' := by unfold outspends; rw [hs]; rfl
      refine ⟨?_, hos.symm⟩
      by_contra hno
      apply hne
      apply OSet.ext_mem
      intro t
      rw [OSet.mem_empty, ← Bool.not_eq_true, ← hos, hw.spends.1]
      exact fun h => hno ⟨t, h⟩
    · rintro ⟨⟨t, ht⟩, rfl⟩
      rw [← hw.spends.1] at ht
      refine ⟨(⟨k, v⟩, g.outspends ⟨k, v⟩), mem_spendsRange.2 ⟨rfl, ?_⟩, rfl⟩
      unfold outspends at ht ⊢
      cases h : g.spends.get ⟨k, v⟩ with
      | none => rw [h] at ht; cases ht
      | some s => rfl
  · unfold txOutspends
    rw [List.map_map, List.pairwise_map]
    have hsorted := g.spends.sorted
    have hsub : (g.spendsRange k).Pairwise (fun a b => a.1 < b.1) := hsorted.sublist (List.filter_sublist)
    refine List.Pairwise.imp_of_mem ?_ hsub
    intro a b ha hb hlt
    obtain ⟨ao, as⟩ := a
    obtain ⟨bo, bs⟩ := b
    have h1 := (mem_spendsRange.1 ha).1
    have h2 := (mem_spendsRange.1 hb).1
    have hlt' : (toLex (ao.txid, ao.vout) : Txid ×ₗ Vout) < toLex (bo.txid, bo.vout) := hlt
    rw [Prod.Lex.toLex_lt_toLex] at hlt'
    simp only [Function.comp]
    rcases hlt' with h | h
    · rw [h1, h2] at h; exact absurd h (lt_irrefl _)
    · exact h.2

example : (exGraph.outspends ⟨dId 0, 0⟩).toList = [dId 1, dId 2] ∧ (exGraph.outspends nullOut).toList = [] ∧
    (exGraph.txOutspends (dId 1)).map (fun e => (e.1, e.2.toList)) = [(0, [dId 4]), (1, [dId 3])] := by decide

/-! ## C21 -/

/-- `prevs` are the known previous outputs of the inputs, in order -/
def PrevOuts (g : TxGraph T) (ins : List OutPoint) (prevs : List TxOut) : Prop :=
  List.Forall₂ (fun i o => g.getTxout i = some o) ins prevs

theorem sumOpt_some (g : TxGraph T) (ins : List OutPoint) (s : Int) :
    sumOpt (ins.map (fun i => (g.getTxout i).map (fun o => (o.value : Int)))) = some s ↔
      ∃ prevs, PrevOuts g ins prevs ∧ s = (prevs.map (fun o => (o.value : Int))).sum := by
  induction ins generalizing s with
  | nil =>
    simp only [List.map_nil, sumOpt, Option.some.injEq]
    constructor
    · rintro rfl; exact ⟨[], .nil, rfl⟩
    · rintro ⟨prevs, h, rfl⟩; cases h; rfl
  | cons i ins ih =>
    simp only [List.map_cons]
    cases hi : g.getTxout i with
    | none =>
      simp only [Option.map_none, sumOpt, reduceCtorEq, false_iff, not_exists, not_and]
      intro prevs h
      cases h with
      | cons h _ => rw [hi] at h; cases h
    | some o =>
      simp only [Option.map_some, sumOpt, Option.map_eq_some_iff]
      constructor
      · rintro ⟨s', hs', rfl⟩
        obtain ⟨prevs, h1, rfl⟩ := (ih s').1 hs'
        exact ⟨o :: prevs, .cons hi h1, by simp⟩
      · rintro ⟨prevs, h, rfl⟩
        cases h with
        | cons h1 h2 =>
          rw [hi] at h1; cases h1
          exact ⟨_, (ih _).2 ⟨_, h2, rfl⟩, by simp⟩

/-- **C21** the fee is known iff the transaction is coinbase or every spent output is known, and is then the value of
the spent outputs minus that of the created ones -/
theorem C21_fee_exact (g : TxGraph T) (tx : Tx) (f : Int) :
    g.calculateFee tx = some f ↔
      (tx.isCoinBase = true ∧ f = 0) ∨
      (tx.isCoinBase = false ∧ ∃ prevs, PrevOuts g tx.input prevs ∧
        f = (prevs.map (fun o => (o.value : Int))).sum - (tx.output.map (fun o => (o.value : Int))).sum) := by
  unfold calculateFee
  by_cases hc : tx.isCoinBase = true
  · simp [hc, eq_comm]
  · simp only [Bool.not_eq_true] at hc
    simp only [hc, Bool.false_eq_true, if_false, false_and, false_or, true_and]
    cases hs : sumOpt (tx.input.map (fun i => (g.getTxout i).map (fun o => (o.value : Int)))) with
    | none =>
      simp only [reduceCtorEq, false_iff, not_exists, not_and]
      intro prevs h _
      have := (sumOpt_some g tx.input _).2 ⟨prevs, h, rfl⟩
      rw [hs] at this; cases this
    | some s =>
      simp only [Option.some.injEq]
      obtain ⟨prevs, h1, rfl⟩ := (sumOpt_some g tx.input s).1 hs
      constructor
      · rintro rfl; exact ⟨prevs, h1, rfl⟩
      · rintro ⟨prevs', h2, rfl⟩
        have := (sumOpt_some g tx.input _).2 ⟨prevs', h2, rfl⟩
        rw [hs] at this; rw [Option.some.inj this]

/-- **C21** it depends on the spent outputs only -/
theorem C21_fee_depends_on_inputs_only (g g' : TxGraph T) (tx : Tx)
    (h : ∀ i ∈ tx.input, g.getTxout i = g'.getTxout i) : g.calculateFee tx = g'.calculateFee tx := by
  unfold calculateFee
  have : tx.input.map (fun i => (g.getTxout i).map (fun o => (o.value : Int))) =
      tx.input.map (fun i => (g'.getTxout i).map (fun o => (o.value : Int))) :=
    List.map_congr_left (fun i hi => by rw [h i hi])
  rw [this]

example : exGraph.calculateFee (demoTx 4) = some 8 ∧ exGraph.calculateFee (demoTx 0) = some 0 ∧
    exGraph.calculateFee (demoTx 5) = some 2 ∧ exGraph.calculateFee (demoTx 6) = some 1 ∧
    (TxGraph.new [d 1] : TxGraph DemoTx).calculateFee (demoTx 4) = none := by decide

/-! ## C22 -/

section
variable {σ O : Type}

/-- **C22** the iterator is exhausted after at most (stack + number of recorded spends) loop iterations, on every graph,
cyclic or not, whatever the closure does -/
theorem C22_walk_terminates (g : TxGraph T) (so : SpendOrder) (f : σ → Nat → Txid → σ × Option O) (w : Walk σ O)
    (n : Nat) (hn : g.walkFuel w ≤ n) : (g.walkN so f n w).stack = [] :=
  walkN_done n w (le_trans (pot_le_fuel g w) hn)

/-- **C22** `walk_descendants(txid, f)`: `f` is called exactly once on each transaction reachable from `txid` through
transactions that `f` accepted, on nothing else, with a depth that is the length of such a path; the closure state
is threaded through the calls -/
theorem C22_walk_exact (g : TxGraph T) (so : SpendOrder) (f : σ → Nat → Txid → σ × Option O) (txid : Txid) (s : σ) :
    let w := g.walkAll so f (g.walkDescendants so txid s)
    (w.calls.map (fun c => c.2.1)).Nodup ∧
    (∀ t, (∃ dep r, (dep, t, r) ∈ w.calls) ↔ ReachVia g (ChildOf g txid) (Walked w) t) ∧
    (∀ dep t r, (dep, t, r) ∈ w.calls → PathLen g (ChildOf g txid) (Walked w) 1 dep t) ∧
    TraceFrom f s w.calls w.state := by
  intro w
  have hi : WalkInv g f (ChildOf g txid) 1 s w := walkN_inv _ (walkDescendants_inv g so f txid s)
  have hs : w.stack = [] := C22_walk_terminates g so f _ _ (le_refl _)
  exact ⟨hi.nodup, inv_exact hi hs, hi.callsOk, hi.trace⟩

/-- **C22** for a closure that only looks at the txid, what is visited is fixed by the graph: it does not depend on
`HashSet` order -/
theorem C22_walk_order_irrelevant (g : TxGraph T) (so : SpendOrder) (f : Txid → Option O) (txid t : Txid) :
    (∃ dep r, (dep, t, r) ∈ (g.walkAll so (pureWalk f) (g.walkDescendants so txid ())).calls) ↔
      ReachVia g (ChildOf g txid) (fun t => (f t).isSome = true) t :=
  pure_exact (walkN_inv _ (walkDescendants_inv g so _ txid ())) (C22_walk_terminates g so _ _ _ (le_refl _)) t

/-- the children relation of a reachable graph is "spends an output of" -/
theorem C22_child_iff (g : TxGraph T) (hg : Reachable g) (p c : Txid) :
    ChildOf g p c ↔ ∃ x, g.getTx c = some x ∧ ∃ o ∈ (asTx x).input, o.txid = p ∧ o.isNull = false := by
  unfold ChildOf
  simp only [C20_outspends_exact g hg]
  constructor
  · rintro ⟨v, x, h1, h2, h3⟩; exact ⟨x, h1, _, h2, rfl, h3⟩
  · rintro ⟨x, h1, o, h2, rfl, h3⟩; exact ⟨o.vout, x, h1, h2, h3⟩
end

/-- collects `(depth, txid)` of everything -/
def collectAll : Unit → Nat → Txid → Unit × Option (Nat × Txid) := fun _ dep t => ((), some (dep, t))

example : (exGraph.walkAll (fun _ => HashOrder.id _) collectAll (exGraph.walkDescendants (fun _ => HashOrder.id _) (dId 0) ())).items =
    [(1, dId 2), (1, dId 1), (2, dId 3), (3, dId 4)] := by decide

/-- the documented "`depth` is the distance between the starting `txid` and the `descendant_txid`"
(tx_graph.rs:380-381) does not hold: 4 spends an output of 1 directly, yet is reported at depth 2 below 1 -/
theorem C22_doc_depth_not_distance :
    ChildOf exGraph (dId 1) (dId 4) ∧
    (2, dId 4) ∈ (exGraph.walkAll (fun _ => HashOrder.id _) collectAll
      (exGraph.walkDescendants (fun _ => HashOrder.id _) (dId 1) ())).items ∧
    (1, dId 4) ∉ (exGraph.walkAll (fun _ => HashOrder.id _) collectAll
      (exGraph.walkDescendants (fun _ => HashOrder.id _) (dId 1) ())).items :=
  ⟨⟨0, by decide⟩, by decide, by decide⟩

/-! ## C23 -/

/-- **C23** `direct_conflicts_of_tx` yields exactly the `(vin, txid)` pairs of other transactions spending that input -/
theorem C23_direct_conflicts_exact (g : TxGraph T) (hg : Reachable g) (so : SpendOrder) (tx : Tx) (vin : Nat) (t : Txid) :
    (vin, t) ∈ g.directConflictsOfTx so tx ↔ ConflictsAt g tx vin t :=
  mem_directConflicts (reachable_wf hg).spends

/-- **C23** `walk_conflicts(tx, f)` calls `f` exactly once on each direct conflict and on each descendant reachable through
accepted ones -/
theorem C23_walk_conflicts_exact {σ O : Type} (g : TxGraph T) (hg : Reachable g) (so : SpendOrder)
    (f : σ → Nat → Txid → σ × Option O) (tx : Tx) (s : σ) :
    let w := g.walkAll so f (g.walkConflicts so tx s)
    (w.calls.map (fun c => c.2.1)).Nodup ∧
    (∀ t, (∃ dep r, (dep, t, r) ∈ w.calls) ↔
      ReachVia g (fun t => ∃ vin, ConflictsAt g tx vin t) (Walked w) t) := by
  intro w
  have hstart : ∀ t, t ∈ (g.directConflictsOfTx so tx).map Prod.snd ↔ ∃ vin, ConflictsAt g tx vin t := by
    intro t
    simp only [List.mem_map, Prod.exists, exists_eq_right, C23_direct_conflicts_exact g hg]
  have hi : WalkInv g f (· ∈ (g.directConflictsOfTx so tx).map Prod.snd) 0 s w :=
    walkN_inv _ (walkFrom_inv g f _ s)
  have hs : w.stack = [] := C22_walk_terminates g so f _ _ (le_refl _)
  refine ⟨hi.nodup, ?_⟩
  intro t
  rw [inv_exact hi hs]
  simp only [hstart]

example : exGraph.directConflictsOfTx (fun _ => HashOrder.id _) (demoTx 2) = [(0, dId 1)] ∧
    (exGraph.walkAll (fun _ => HashOrder.rev _) collectAll
      (exGraph.walkConflicts (fun _ => HashOrder.rev _) (demoTx 2) ())).items =
      [(0, dId 1), (1, dId 3), (2, dId 4)] := by decide

end Verif.Props
