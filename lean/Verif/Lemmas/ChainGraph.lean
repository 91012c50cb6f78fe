import Verif.Spec.ChainGraph
import Verif.Lemmas.SparseChain3
import Verif.Lemmas.Walk

set_option linter.unusedSectionVars false

namespace Verif

open Verif.Spec

namespace SparseChain
variable {P : Type} [LinearOrder P] [ChainPosition P] [LawfulChainPosition P]

theorem baseChangeset_tx {c u : SparseChain P} (hc : Consistent c) {t : Txid} {x : Option P}
    (h : (baseChangeset c u).txids.get t = some x) :
    x = some (ChainPosition.maxOrd .unconfirmed) ∧ c.txPosition t ≠ none := by
  unfold baseChangeset at h
  split at h
  · unfold invalidateCheckpointsPreview at h
    have hm := OMap.ofList_mem h
    rw [List.mem_map] at hm
    obtain ⟨e, he, heq⟩ := hm
    cases heq
    refine ⟨rfl, ?_⟩
    unfold rangeList at he
    rw [List.mem_map] at he
    obtain ⟨e', he', rfl⟩ := he
    have := (List.mem_filter.1 he').1
    have h3 := (hc (ofLex e').1 (ofLex e').2).1 (OSet.mem_toList.1 this)
    unfold txPosition; rw [h3]; simp
  · cases h

/-- what a successful `determine_changeset` says about a txid (no assumption on heights) -/
theorem determine_txids {c u : SparseChain P} {ho : HashOrder (Txid × P)} {cs : ChangeSet P}
    (h : c.determineChangeset u ho = .ok cs) (t : Txid) :
    cs.txids.get t = match u.txidToPos.get t with
      | some q => if c.txidToPos.get t = some q then none else some (some q)
      | none => (baseChangeset c u).txids.get t := by
  unfold determineChangeset at h
  simp only [] at h
  split at h
  · cases h
  · split at h
    · cases h
    · cases h
      simp only []
      rw [OMap.foldl_perm u.txidToPos _ (ho.isPerm _) (mergeTx c) (fun m k => m.get k)
        (fun k v a => if c.txidToPos.get k = some v then none else some (some v)) _ ?_ t]
      · cases u.txidToPos.get t <;> rfl
      · intro s k v k'
        unfold mergeTx
        simp only []
        by_cases hk : k' = k
        · subst hk
          by_cases h2 : c.txidToPos.get k' = some v
          · simp [h2, OMap.get_erase]
          · simp [h2, OMap.get_insert]
        · by_cases h2 : c.txidToPos.get k = some v
          · simp [h2, OMap.get_erase, OMap.get_insert, hk]
          · simp [h2, OMap.get_insert, hk]

theorem determine_pos {c u : SparseChain P} {ho : HashOrder (Txid × P)} {cs : ChangeSet P}
    (hc : Consistent c) (h : c.determineChangeset u ho = .ok cs) (t : Txid) :
    (∀ q, u.txPosition t = some q → (c.applyChangeset cs).txPosition t = some q) ∧
    (u.txPosition t = none → c.txPosition t = none → (c.applyChangeset cs).txPosition t = none) ∧
    (c.txPosition t ≠ none → (c.applyChangeset cs).txPosition t ≠ none) ∧
    cs.txids.get t ≠ some none := by
  have hd := determine_txids h t
  have ha := applyChangeset_tx c cs t
  unfold overlay at ha
  unfold txPosition
  cases hu : u.txidToPos.get t with
  | some q =>
    rw [hu] at hd
    by_cases h2 : c.txidToPos.get t = some q
    · simp only [h2, if_true] at hd
      rw [hd] at ha
      simp [ha, hd, h2]
    · simp only [h2, if_false] at hd
      rw [hd] at ha
      simp [ha, hd]
  | none =>
    rw [hu] at hd
    simp only [] at hd
    cases hb : (baseChangeset c u).txids.get t with
    | none =>
      rw [hb] at hd; rw [hd] at ha
      simp only [] at ha
      rw [ha, hd]
      refine ⟨by simp, fun _ h => h, fun h => h, by simp⟩
    | some x =>
      obtain ⟨rfl, hx⟩ := baseChangeset_tx hc hb
      rw [hb] at hd; rw [hd] at ha
      simp only [] at ha
      rw [ha, hd]
      refine ⟨by simp, fun _ h => absurd h hx, by simp, by simp⟩

end SparseChain

namespace ChainGraph
variable {P T : Type} [LinearOrder P] [AsTransaction T]

open TxGraph

/-- the conflicts found by the walk are exactly the transactions of `ChainConflict` -/
theorem mem_conflictsIn {c : SparseChain P} {g : TxGraph T} (hw : SpendsOk g) {so : SpendOrder} {tx : Tx} {p : P} {t : Txid} :
    (p, t) ∈ conflictsIn c g so tx ↔ c.txPosition t = some p ∧ ChainConflict c g tx t := by
  have hstart : ∀ t, t ∈ (g.directConflictsOfTx so tx).map Prod.snd ↔ ∃ vin, ConflictsAt g tx vin t := by
    intro t
    simp only [List.mem_map, Prod.exists, exists_eq_right, mem_directConflicts hw]
  have hi : WalkInv g c.inChainFilter (· ∈ (g.directConflictsOfTx so tx).map Prod.snd) 0 ()
      (g.walkAll so c.inChainFilter (g.walkConflicts so tx ())) := walkN_inv _ (walkFrom_inv g _ _ ())
  have hs : (g.walkAll so c.inChainFilter (g.walkConflicts so tx ())).stack = [] :=
    walkN_done _ _ (pot_le_fuel g _)
  have hex := pure_exact (f := fun t => (c.txPosition t).map (fun p => (p, t))) hi hs t
  have htr : ∀ dep r, (dep, t, r) ∈ (g.walkAll so c.inChainFilter (g.walkConflicts so tx ())).calls →
      r = (c.txPosition t).map (fun p => (p, t)) := fun dep r h =>
    pureWalk_calls (f := fun t => (c.txPosition t).map (fun p => (p, t))) hi.trace h
  simp only [hstart] at hex
  have hacc : ∀ t, ((c.txPosition t).map (fun p => (p, t))).isSome = true ↔ InChain c t := by
    intro t; unfold InChain; cases c.txPosition t <;> simp
  simp only [hacc] at hex
  unfold conflictsIn Walk.items
  simp only [List.mem_filterMap, List.mem_reverse, Prod.exists]
  unfold ChainConflict
  have hret : ∀ dep t' r, (dep, t', r) ∈ (g.walkAll so c.inChainFilter (g.walkConflicts so tx ())).calls →
      r = (c.txPosition t').map (fun p => (p, t')) := fun dep t' r h =>
    pureWalk_calls (f := fun t => (c.txPosition t).map (fun p => (p, t))) hi.trace h
  constructor
  · rintro ⟨dep, t', r, hm, hr⟩
    have := hret _ _ _ hm
    subst hr
    cases hp : c.txPosition t' with
    | none => rw [hp] at this; cases this
    | some p' =>
      rw [hp] at this
      simp only [Option.map_some, Option.some.injEq, Prod.mk.injEq] at this
      obtain ⟨rfl, rfl⟩ := this
      exact ⟨hp, by unfold InChain; rw [hp]; simp, hex.1 ⟨dep, _, hm⟩⟩
  · rintro ⟨hp, -, hr⟩
    obtain ⟨dep, r, hm⟩ := hex.2 hr
    have := hret _ _ _ hm
    rw [hp] at this
    exact ⟨dep, t, r, hm, this⟩

theorem conflictsIn_head {c : SparseChain P} {g : TxGraph T} (hw : SpendsOk g) {so : SpendOrder} {tx : Tx} :
    (conflictsIn c g so tx).head? = none ↔ ∀ t, ¬ (InChain c t ∧ ∃ vin, ConflictsAt g tx vin t) := by
  rw [List.head?_eq_none_iff]
  constructor
  · rintro h t ⟨h1, h2⟩
    unfold InChain at h1
    obtain ⟨p, hp⟩ := Option.ne_none_iff_exists'.1 h1
    have : (p, t) ∈ conflictsIn c g so tx := (mem_conflictsIn hw).2 ⟨hp, h1, .start h2⟩
    rw [h] at this; cases this
  · intro h
    by_contra hne
    obtain ⟨⟨p, t⟩, hm⟩ := List.exists_mem_of_ne_nil _ hne
    obtain ⟨-, h1, h2⟩ := (mem_conflictsIn hw).1 hm
    have : ∀ t, ReachVia g (fun t => ∃ vin, ConflictsAt g tx vin t) (InChain c) t →
        InChain c t → ∃ t', InChain c t' ∧ ∃ vin, ConflictsAt g tx vin t' := by
      intro t ht
      induction ht with
      | start hs => intro hin; exact ⟨_, hin, hs⟩
      | step _ ha _ ih => intro _; exact ih ha
    obtain ⟨t', h3⟩ := this t h2 h1
    exact h t' h3

/-- the states the theorems are about -/
structure Inv (cg : ChainGraph P T) : Prop where
  cons : SparseChain.Consistent cg.chain
  wf : TxGraph.WF cg.graph
  full : AllFull cg.chain cg.graph
  nods : NoDoubleSpend cg.chain cg.graph

variable [LinearOrder T]

theorem conflict_iff {c : SparseChain P} {g : TxGraph T} (hk : KeysOk g) {t : Txid} {x : T}
    (hx : g.getTx t = some x) (t' : Txid) :
    (∃ vin, ConflictsAt g (asTx x) vin t') ↔
      t' ≠ t ∧ ∃ y o, g.getTx t' = some y ∧ o ∈ (asTx x).input ∧ o ∈ (asTx y).input ∧ o.isNull = false := by
  have hid : (asTx x).txid = t := hk _ _ hx
  unfold ConflictsAt SpentByInGraph
  rw [hid]
  constructor
  · rintro ⟨vin, o, h1, ⟨y, h2, h3, h4⟩, h5⟩
    exact ⟨h5, y, o, h2, List.mem_of_getElem? h1, h3, h4⟩
  · rintro ⟨h5, y, o, h2, h1, h3, h4⟩
    obtain ⟨vin, hv⟩ := List.getElem?_of_mem h1
    exact ⟨vin, o, hv, ⟨y, h2, h3, h4⟩, h5⟩

/-! ### `new` -/

theorem newLoop_ok {c : SparseChain P} {g : TxGraph T} {so : SpendOrder} {l : List (P × Txid)} {m m' : OSet Txid}
    (h : newLoop c g so l m = .ok m') :
    (∀ e ∈ l, ∀ x, g.getTx e.2 = some x → (conflictsIn c g so (asTx x)).head? = none) ∧
    (∀ t, m'.mem t = true ↔ m.mem t = true ∨ (∃ p, (p, t) ∈ l) ∧ g.getTx t = none) := by
  induction l generalizing m with
  | nil => cases h; simp
  | cons e l ih =>
    obtain ⟨p, t⟩ := e
    unfold newLoop at h
    cases hx : g.getTx t with
    | some x =>
      rw [hx] at h
      simp only [] at h
      cases hh : (conflictsIn c g so (asTx x)).head? with
      | some y => rw [hh] at h; cases h
      | none =>
        rw [hh] at h
        obtain ⟨h1, h2⟩ := ih h
        constructor
        · intro e he y hy
          rcases List.mem_cons.1 he with rfl | he
          · simp only [hx, Option.some.injEq] at hy; subst hy; exact hh
          · exact h1 e he y hy
        · intro t'
          rw [h2 t']
          constructor
          · rintro (h | ⟨⟨p', h⟩, h'⟩)
            · exact Or.inl h
            · exact Or.inr ⟨⟨p', List.mem_cons_of_mem _ h⟩, h'⟩
          · rintro (h | ⟨⟨p', h⟩, h'⟩)
            · exact Or.inl h
            · rcases List.mem_cons.1 h with h | h
              · cases h; rw [hx] at h'; cases h'
              · exact Or.inr ⟨⟨p', h⟩, h'⟩
    | none =>
      rw [hx] at h
      simp only [] at h
      obtain ⟨h1, h2⟩ := ih h
      constructor
      · intro e he y hy
        rcases List.mem_cons.1 he with rfl | he
        · simp only [hx] at hy; cases hy
        · exact h1 e he y hy
      · intro t'
        rw [h2 t', OSet.mem_add]
        simp only [Bool.or_eq_true, decide_eq_true_eq]
        constructor
        · rintro ((rfl | h) | ⟨⟨p', h⟩, h'⟩)
          · exact Or.inr ⟨⟨p, by simp⟩, hx⟩
          · exact Or.inl h
          · exact Or.inr ⟨⟨p', List.mem_cons_of_mem _ h⟩, h'⟩
        · rintro (h | ⟨⟨p', h⟩, h'⟩)
          · exact Or.inl (Or.inr h)
          · rcases List.mem_cons.1 h with h | h
            · cases h; exact Or.inl (Or.inl rfl)
            · exact Or.inr ⟨⟨p', h⟩, h'⟩

theorem newLoop_error {c : SparseChain P} {g : TxGraph T} {so : SpendOrder} {l : List (P × Txid)} {m : OSet Txid}
    {e : NewError P} (h : newLoop c g so l m = .error e) :
    ∃ a b x, e = .conflict a b ∧ a ∈ l ∧ g.getTx a.2 = some x ∧ b ∈ conflictsIn c g so (asTx x) := by
  induction l generalizing m with
  | nil => cases h
  | cons e' l ih =>
    obtain ⟨p, t⟩ := e'
    unfold newLoop at h
    cases hx : g.getTx t with
    | some x =>
      rw [hx] at h
      simp only [] at h
      cases hh : (conflictsIn c g so (asTx x)).head? with
      | some y =>
        rw [hh] at h; cases h
        exact ⟨_, _, x, rfl, by simp, hx, List.mem_of_head? hh⟩
      | none =>
        rw [hh] at h
        obtain ⟨a, b, x, h1, h2, h3⟩ := ih h
        exact ⟨a, b, x, h1, List.mem_cons_of_mem _ h2, h3⟩
    | none =>
      rw [hx] at h
      simp only [] at h
      obtain ⟨a, b, x, h1, h2, h3⟩ := ih h
      exact ⟨a, b, x, h1, List.mem_cons_of_mem _ h2, h3⟩

/-! ### `fix_conflicts` -/

theorem mem_chainConflicts {P T : Type} [LinearOrder P] [AsTransaction T] [LinearOrder T] [ChainPosition P]
    {cg : ChainGraph P T} {cs : CGChangeSet P T} {so : SpendOrder} {l : List (Txid × P)}
    {r : List ((P × Txid) × (P × Txid))} (h : cg.chainConflicts cs so l = some r) (e : (P × Txid) × (P × Txid)) :
    e ∈ r ↔ ∃ x, (e.1.2, e.1.1) ∈ l ∧ cg.fullTxOf cs e.1.2 = some x ∧ e.2 ∈ cg.txConflictsInChain so (asTx x) := by
  induction l generalizing r with
  | nil => cases h; simp
  | cons a l ih =>
    unfold chainConflicts at h
    cases hx : cg.fullTxOf cs a.1 with
    | none => rw [hx] at h; cases h
    | some x =>
      rw [hx] at h
      simp only [Option.map_eq_some_iff] at h
      obtain ⟨r', hr', rfl⟩ := h
      rw [List.mem_append, ih hr']
      unfold conflictsOfNew
      simp only [List.mem_map, List.mem_cons]
      constructor
      · rintro (⟨c, hc, rfl⟩ | ⟨y, h1, h2, h3⟩)
        · exact ⟨x, Or.inl rfl, hx, hc⟩
        · exact ⟨y, Or.inr h1, h2, h3⟩
      · rintro ⟨y, h1 | h1, h2, h3⟩
        · left
          have hy : y = x := by
            have : a.1 = e.1.2 := by rw [← h1]
            rw [← this, hx] at h2; exact (Option.some.inj h2).symm
          subst hy
          refine ⟨e.2, h3, ?_⟩
          rw [← h1]
        · exact Or.inr ⟨y, h1, h2, h3⟩

theorem chainConflicts_none {P T : Type} [LinearOrder P] [AsTransaction T] [LinearOrder T] [ChainPosition P]
    {cg : ChainGraph P T} {cs : CGChangeSet P T} {so : SpendOrder} {l : List (Txid × P)}
    (h : cg.chainConflicts cs so l = none) : ∃ a ∈ l, cg.fullTxOf cs a.1 = none := by
  induction l with
  | nil => cases h
  | cons a l ih =>
    unfold chainConflicts at h
    cases hx : cg.fullTxOf cs a.1 with
    | none => exact ⟨a, by simp, hx⟩
    | some x =>
      rw [hx] at h
      simp only [Option.map_eq_none_iff] at h
      obtain ⟨b, hb, hn⟩ := ih h
      exact ⟨b, List.mem_cons_of_mem _ hb, hn⟩

section
variable {P : Type} [LinearOrder P] [ChainPosition P]
open SparseChain

theorem conflictingNewPos_eq {base : OMap Txid P} {m : OMap Txid (Option P)} {c : P × Txid}
    (h : base.get c.2 = some c.1) : conflictingNewPos m c = overlay m base c.2 := by
  unfold conflictingNewPos overlay
  cases m.get c.2 with
  | none => simp [h]
  | some o => rfl

theorem overlay_insert (m : OMap Txid (Option P)) (base : OMap Txid P) (k t : Txid) :
    overlay (m.insert k none) base t = if t = k then none else overlay m base t := by
  unfold overlay
  rw [OMap.get_insert]
  by_cases h : t = k
  · simp [h]
  · simp [h]

theorem resolve_ok {base : OMap Txid P} {l : List ((P × Txid) × (P × Txid))} {m m' : OMap Txid (Option P)}
    (hb : ∀ e ∈ l, base.get e.2.2 = some e.2.1) (h : resolve l m = .ok m') :
    (∀ e ∈ l, ∀ p, overlay m base e.2.2 = some p → ChainPosition.height p = .unconfirmed) ∧
    (∀ t, (∃ e ∈ l, e.2.2 = t) → overlay m' base t = none) ∧
    (∀ t, (¬ ∃ e ∈ l, e.2.2 = t) → m'.get t = m.get t) := by
  induction l generalizing m with
  | nil => cases h; simp
  | cons a l ih =>
    obtain ⟨u, c⟩ := a
    have hbl : ∀ e ∈ l, base.get e.2.2 = some e.2.1 := fun e he => hb e (List.mem_cons_of_mem _ he)
    unfold resolve at h
    rw [conflictingNewPos_eq (hb _ List.mem_cons_self)] at h
    cases ho : overlay m base c.2 with
    | none =>
      simp only [ho] at h
      obtain ⟨h1, h2, h3⟩ := ih hbl h
      refine ⟨?_, ?_, ?_⟩
      · intro e he p hp
        rcases List.mem_cons.1 he with rfl | he
        · simp only [ho] at hp; cases hp
        · exact h1 e he p hp
      · rintro t ⟨e, he, rfl⟩
        rcases List.mem_cons.1 he with rfl | he
        · by_cases hin : ∃ e ∈ l, e.2.2 = c.2
          · exact h2 _ hin
          · unfold overlay at ho ⊢
            simp only [h3 _ hin]; exact ho
        · exact h2 _ ⟨e, he, rfl⟩
      · intro t ht
        apply h3
        rintro ⟨e, he, rfl⟩
        exact ht ⟨e, List.mem_cons_of_mem _ he, rfl⟩
    | some p0 =>
      simp only [ho] at h
      cases hh : ChainPosition.height p0 with
      | confirmed k => rw [hh] at h; cases h
      | unconfirmed =>
        rw [hh] at h
        obtain ⟨h1, h2, h3⟩ := ih hbl h
        refine ⟨?_, ?_, ?_⟩
        · intro e he p hp
          rcases List.mem_cons.1 he with rfl | he
          · simp only [ho, Option.some.injEq] at hp; subst hp; exact hh
          · by_cases hk : e.2.2 = c.2
            · rw [hk, ho] at hp; cases hp; exact hh
            · apply h1 e he p
              rw [overlay_insert, if_neg hk]; exact hp
        · rintro t ⟨e, he, rfl⟩
          rcases List.mem_cons.1 he with rfl | he
          · by_cases hin : ∃ e ∈ l, e.2.2 = c.2
            · exact h2 _ hin
            · unfold overlay
              simp only [h3 _ hin, OMap.get_insert_self]
          · exact h2 _ ⟨e, he, rfl⟩
        · intro t ht
          rw [h3 t (by rintro ⟨e, he, rfl⟩; exact ht ⟨e, List.mem_cons_of_mem _ he, rfl⟩), OMap.get_insert, if_neg]
          rintro rfl
          exact ht ⟨(u, c), by simp, rfl⟩

theorem resolve_error {base : OMap Txid P} {l : List ((P × Txid) × (P × Txid))} {m : OMap Txid (Option P)}
    {e : UnresolvableConflict P} (hb : ∀ e ∈ l, base.get e.2.2 = some e.2.1) (h : resolve l m = .error e) :
    (e.updateTx, e.alreadyConfirmedTx) ∈ l ∧
      ∃ p k, overlay m base e.alreadyConfirmedTx.2 = some p ∧ ChainPosition.height p = .confirmed k := by
  induction l generalizing m with
  | nil => cases h
  | cons a l ih =>
    obtain ⟨u, c⟩ := a
    have hbl : ∀ e ∈ l, base.get e.2.2 = some e.2.1 := fun e he => hb e (List.mem_cons_of_mem _ he)
    unfold resolve at h
    rw [conflictingNewPos_eq (hb _ List.mem_cons_self)] at h
    cases ho : overlay m base c.2 with
    | none =>
      simp only [ho] at h
      obtain ⟨h1, h2⟩ := ih hbl h
      exact ⟨List.mem_cons_of_mem _ h1, h2⟩
    | some p0 =>
      simp only [ho] at h
      cases hh : ChainPosition.height p0 with
      | confirmed k =>
        rw [hh] at h; cases h
        exact ⟨by simp, p0, k, ho, hh⟩
      | unconfirmed =>
        rw [hh] at h
        obtain ⟨h1, p, k, h2, h3⟩ := ih hbl h
        refine ⟨List.mem_cons_of_mem _ h1, p, k, ?_, h3⟩
        rw [overlay_insert] at h2
        split at h2
        · cases h2
        · exact h2
end

end ChainGraph
end Verif
