import Verif.Spec.TxGraph

set_option linter.unusedSectionVars false

namespace Verif.TxGraph
open Verif Verif.Spec
variable {T : Type} [AsTransaction T]

/-- the key of a full transaction is its txid -/
def KeysOk (g : TxGraph T) : Prop := ∀ k t, g.getTx k = some t → (asTx t).txid = k
/-- partial nodes are never empty -/
def PartialsOk (g : TxGraph T) : Prop := ∀ k p, g.txs.get k = some (.partialOuts p) → p ≠ OMap.empty
/-- the spend index matches the full transactions -/
def SpendsOk (g : TxGraph T) : Prop :=
  (∀ o t, (g.outspends o).mem t = true ↔ SpentByInGraph g o t) ∧
  (∀ o s, g.spends.get o = some s → s ≠ OMap.empty)

structure WF (g : TxGraph T) : Prop where
  keys : KeysOk g
  partials : PartialsOk g
  spends : SpendsOk g

theorem getTx_eq {g : TxGraph T} {k : Txid} {t : T} : g.getTx k = some t ↔ g.txs.get k = some (.whole t) := by
  unfold getTx
  cases h : g.txs.get k with
  | none => simp
  | some n => cases n <;> simp

theorem getTx_none {g : TxGraph T} {k : Txid} :
    g.getTx k = none ↔ g.txs.get k = none ∨ ∃ p, g.txs.get k = some (.partialOuts p) := by
  unfold getTx
  cases h : g.txs.get k with
  | none => simp
  | some n => cases n <;> simp

theorem getTxout_whole {g : TxGraph T} {o : OutPoint} {t : T} (h : g.getTx o.txid = some t) :
    g.getTxout o = (asTx t).output[o.vout.val]? := by
  unfold getTxout; rw [getTx_eq.1 h]

theorem empty_wf : WF (empty : TxGraph T) := by
  refine ⟨?_, ?_, ?_, ?_⟩
  · intro k t h; cases h
  · intro k p h; cases h
  · intro o t
    constructor
    · intro h; cases h
    · rintro ⟨x, h, _⟩; cases h
  · intro o s h; cases h

/-- well-formed graphs are determined by what `get_tx` and `get_txout` answer -/
theorem ext_of_wf {a b : TxGraph T} (ha : WF a) (hb : WF b) (h1 : ∀ k, a.getTx k = b.getTx k)
    (h2 : ∀ o, a.getTxout o = b.getTxout o) : a = b := by
  have hspend : ∀ o t, (a.outspends o).mem t = (b.outspends o).mem t := by
    intro o t
    rw [Bool.eq_iff_iff, ha.spends.1, hb.spends.1]
    unfold SpentByInGraph; simp only [h1]
  have hs : a.spends = b.spends := by
    apply OMap.ext_get; intro o
    have he : a.outspends o = b.outspends o := OSet.ext_mem (hspend o)
    unfold outspends at he
    cases hx : a.spends.get o with
    | none =>
      cases hy : b.spends.get o with
      | none => rfl
      | some s => rw [hx, hy] at he; exact absurd he.symm (hb.spends.2 o s hy)
    | some s =>
      cases hy : b.spends.get o with
      | none => rw [hx, hy] at he; exact absurd he (ha.spends.2 o s hx)
      | some s' => rw [hx, hy] at he; exact congrArg some he
  have key : ∀ {a b : TxGraph T}, WF a → WF b → (∀ k, a.getTx k = b.getTx k) → (∀ o, a.getTxout o = b.getTxout o) →
      ∀ k p, a.txs.get k = some (.partialOuts p) → b.txs.get k = some (.partialOuts p) := by
    intro a b ha hb h1 h2 k p hp
    have hn : b.getTx k = none := by rw [← h1]; exact getTx_none.2 (Or.inr ⟨p, hp⟩)
    have hpo : ∀ v, b.getTxout ⟨k, v⟩ = p.get v := by
      intro v; rw [← h2]; unfold getTxout; simp [hp]
    rcases getTx_none.1 hn with h | ⟨q, hq⟩
    · exfalso
      apply ha.partials k p hp
      apply OMap.eq_empty_iff.2
      intro v; rw [← hpo v]; unfold getTxout; simp [h]
    · rw [hq]; congr 2
      apply OMap.ext_get; intro v
      rw [← hpo v]; unfold getTxout; simp [hq]
  have ht : a.txs = b.txs := by
    apply OMap.ext_get; intro k
    cases hx : a.txs.get k with
    | some n =>
      cases n with
      | whole t =>
        have := getTx_eq.2 hx; rw [h1] at this; exact (getTx_eq.1 this).symm
      | partialOuts p => exact (key ha hb h1 h2 k p hx).symm
    | none =>
      cases hy : b.txs.get k with
      | none => rfl
      | some n =>
        cases n with
        | whole t => have := getTx_eq.2 hy; rw [← h1, getTx_eq, hx] at this; cases this
        | partialOuts p =>
          have := key hb ha (fun k => (h1 k).symm) (fun o => (h2 o).symm) k p hy
          rw [hx] at this; cases this
  cases a; cases b; simp only at hs ht; subst hs; subst ht; rfl

/-! ### apply_additions -/

theorem foldl_addSpend_mem (txid : Txid) (l : List OutPoint) (s : OMap OutPoint (OSet Txid)) (o : OutPoint) (t : Txid) :
    (((l.foldl (addSpend txid) s).get o).getD OMap.empty : OSet Txid).mem t = true ↔
      (t = txid ∧ o ∈ l) ∨ ((s.get o).getD OMap.empty : OSet Txid).mem t = true := by
  induction l generalizing s with
  | nil => simp
  | cons a l ih =>
    simp only [List.foldl_cons, List.mem_cons]
    rw [ih]
    unfold addSpend
    rw [OMap.get_insert]
    by_cases h : o = a
    · subst h
      rw [if_pos rfl]
      simp only [Option.getD_some]
      rw [OSet.mem_add]
      simp only [Bool.or_eq_true, decide_eq_true_eq]
      constructor
      · rintro (⟨h, h'⟩ | h | h)
        · exact Or.inl ⟨h, Or.inr h'⟩
        · exact Or.inl ⟨h, Or.inl trivial⟩
        · exact Or.inr h
      · rintro (⟨h, _⟩ | h)
        · exact Or.inr (Or.inl h)
        · exact Or.inr (Or.inr h)
    · rw [if_neg h]
      constructor
      · rintro (⟨h1, h'⟩ | h1)
        · exact Or.inl ⟨h1, Or.inr h'⟩
        · exact Or.inr h1
      · rintro (⟨h1, h' | h'⟩ | h1)
        · exact absurd h' h
        · exact Or.inl ⟨h1, h'⟩
        · exact Or.inr h1

theorem foldl_addSpend_nonempty (txid : Txid) (l : List OutPoint) (s : OMap OutPoint (OSet Txid))
    (hs : ∀ o x, s.get o = some x → x ≠ OMap.empty) (o : OutPoint) (x : OSet Txid)
    (h : (l.foldl (addSpend txid) s).get o = some x) : x ≠ OMap.empty := by
  induction l generalizing s with
  | nil => exact hs o x h
  | cons a l ih =>
    simp only [List.foldl_cons] at h
    apply ih _ _ h
    intro o' x' h'
    unfold addSpend at h'
    rw [OMap.get_insert] at h'
    split at h'
    · cases h'
      intro he
      have : (OSet.add ((s.get a).getD OMap.empty) txid).mem txid = true := by rw [OSet.mem_add]; simp
      rw [he] at this; cases this
    · exact hs o' x' h'

theorem applyTx_getTx (g : TxGraph T) (t : T) (k : Txid) :
    (g.applyTx t).getTx k = if k = (asTx t).txid then some t else g.getTx k := by
  unfold applyTx getTx
  simp only [OMap.get_insert]
  by_cases h : k = (asTx t).txid
  · simp only [if_pos h]
  · simp only [if_neg h]

theorem applyTx_getTxout (g : TxGraph T) (t : T) (o : OutPoint) :
    (g.applyTx t).getTxout o = if o.txid = (asTx t).txid then (asTx t).output[o.vout.val]? else g.getTxout o := by
  unfold applyTx getTxout
  simp only [OMap.get_insert]
  by_cases h : o.txid = (asTx t).txid
  · simp only [if_pos h]
  · simp only [if_neg h]

theorem applyTx_wf [LawfulTx T] {g : TxGraph T} (h : WF g) (t : T) : WF (g.applyTx t) := by
  refine ⟨?_, ?_, ?_, ?_⟩
  · intro k x hx
    rw [applyTx_getTx] at hx
    split at hx
    · next he => cases hx; exact he.symm
    · exact h.keys k x hx
  · intro k p hp
    unfold applyTx at hp
    simp only [OMap.get_insert] at hp
    split at hp
    · cases hp
    · exact h.partials k p hp
  · intro o k
    have hm := foldl_addSpend_mem (asTx t).txid ((asTx t).input.filter (fun o => !o.isNull)) g.spends o k
    have hm' : ((g.applyTx t).outspends o).mem k = true ↔
        (k = (asTx t).txid ∧ o ∈ (asTx t).input ∧ o.isNull = false) ∨ (g.outspends o).mem k = true := by
      unfold outspends applyTx
      simp only []
      rw [hm]; simp [List.mem_filter]
    rw [hm', h.spends.1]
    unfold SpentByInGraph
    simp only [applyTx_getTx]
    constructor
    · rintro (⟨h1, h2, h3⟩ | ⟨x, h1, h2, h3⟩)
      · exact ⟨t, by rw [if_pos h1], h2, h3⟩
      · by_cases hk : k = (asTx t).txid
        · have hx := h.keys k x h1
          have : asTx x = asTx t := LawfulTx.txid_inj x t (by rw [hx, hk])
          exact ⟨t, by rw [if_pos hk], by rw [← this]; exact h2, h3⟩
        · exact ⟨x, by rw [if_neg hk]; exact h1, h2, h3⟩
    · rintro ⟨x, h1, h2, h3⟩
      split at h1
      · next hk => cases h1; exact Or.inl ⟨hk, h2, h3⟩
      · exact Or.inr ⟨x, h1, h2, h3⟩
  · intro o s hs
    exact foldl_addSpend_nonempty _ _ g.spends h.spends.2 o s hs

theorem applyTxout_spends (g : TxGraph T) (e : OutPoint × TxOut) : (g.applyTxout e).spends = g.spends := by
  unfold applyTxout; split <;> rfl

theorem applyTxout_getTx (g : TxGraph T) (e : OutPoint × TxOut) (k : Txid) : (g.applyTxout e).getTx k = g.getTx k := by
  unfold applyTxout
  split
  · rfl
  · next p hp =>
    unfold getTx
    simp only [OMap.get_insert]
    by_cases he : k = e.1.txid
    · subst he
      simp only [if_pos]
      cases hx : g.txs.get e.1.txid with
      | none => rfl
      | some n => rw [hx] at hp; simp at hp; subst hp; rfl
    · simp only [if_neg he]

theorem applyTxout_getTxout (g : TxGraph T) (e : OutPoint × TxOut) (o : OutPoint) :
    (g.applyTxout e).getTxout o =
      if o = e.1 ∧ g.getTx o.txid = none then some e.2 else g.getTxout o := by
  obtain ⟨eo, ex⟩ := e
  unfold applyTxout
  simp only
  split
  · next t ht =>
    rw [if_neg]
    rintro ⟨rfl, hn⟩
    cases hx : g.txs.get o.txid with
    | none => rw [hx] at ht; simp at ht
    | some n =>
      rw [hx] at ht; simp at ht; subst ht
      rw [getTx_eq.2 hx] at hn; cases hn
  · next p hp =>
    by_cases hk : o.txid = eo.txid
    · have hn : g.getTx eo.txid = none := by
        rw [getTx_none]
        cases hx : g.txs.get eo.txid with
        | none => left; rfl
        | some n => right; rw [hx] at hp; simp at hp; subst hp; exact ⟨p, rfl⟩
      unfold getTxout
      simp only [OMap.get_insert, if_pos hk]
      by_cases hv : o.vout = eo.vout
      · have : o = eo := by cases o; cases eo; simp_all
        subst this
        simp [hn]
      · have : ¬ (o = eo) := fun h => hv (by rw [h])
        simp only [this, false_and, if_false, if_neg hv]
        rw [hk]
        cases hx : g.txs.get eo.txid with
        | none => rw [hx] at hp; simp at hp; subst hp; rfl
        | some n => rw [hx] at hp; simp at hp; subst hp; rfl
    · have : ¬ (o = eo) := fun h => hk (by rw [h])
      simp only [this, false_and, if_false]
      unfold getTxout
      simp only [OMap.get_insert, if_neg hk]

theorem applyTxout_wf {g : TxGraph T} (h : WF g) (e : OutPoint × TxOut) : WF (g.applyTxout e) := by
  refine ⟨?_, ?_, ?_, ?_⟩
  · intro k t ht; rw [applyTxout_getTx] at ht; exact h.keys k t ht
  · intro k p hp
    unfold applyTxout at hp
    split at hp
    · exact h.partials k p hp
    · simp only [OMap.get_insert] at hp
      split at hp
      · cases hp
        intro he
        have := OMap.eq_empty_iff.1 he e.1.vout
        rw [OMap.get_insert_self] at this; cases this
      · exact h.partials k p hp
  · intro o t
    have h1 : (g.applyTxout e).outspends o = g.outspends o := by unfold outspends; rw [applyTxout_spends]
    rw [h1, h.spends.1]; unfold SpentByInGraph; simp only [applyTxout_getTx]
  · intro o s hs; rw [applyTxout_spends] at hs; exact h.spends.2 o s hs

/-! ### folds -/

/-- the version of `k` that applying the list in order leaves -/
def lastTx (l : List T) (k : Txid) : Option T := l.reverse.find? (fun t => decide ((asTx t).txid = k))

theorem lastTx_cons (t : T) (l : List T) (k : Txid) :
    lastTx (t :: l) k = (lastTx l k).or (if k = (asTx t).txid then some t else none) := by
  unfold lastTx
  rw [List.reverse_cons, List.find?_append]
  congr 1
  by_cases h : k = (asTx t).txid
  · simp [h]
  · rw [if_neg h]
    rw [List.find?_cons_of_neg]
    · rfl
    · simp; exact fun h' => h h'.symm

theorem foldl_applyTx_getTx (l : List T) (g : TxGraph T) (k : Txid) :
    (l.foldl applyTx g).getTx k = (lastTx l k).or (g.getTx k) := by
  induction l generalizing g with
  | nil => rfl
  | cons t l ih =>
    simp only [List.foldl_cons]
    rw [ih, applyTx_getTx, lastTx_cons]
    cases lastTx l k with
    | some x => rfl
    | none => simp only [Option.none_or]; split <;> simp

theorem foldl_applyTx_getTxout (l : List T) (g : TxGraph T) (o : OutPoint) :
    (l.foldl applyTx g).getTxout o = match lastTx l o.txid with
      | some t => (asTx t).output[o.vout.val]?
      | none => g.getTxout o := by
  induction l generalizing g with
  | nil => rfl
  | cons t l ih =>
    simp only [List.foldl_cons]
    rw [ih, applyTx_getTxout, lastTx_cons]
    cases lastTx l o.txid with
    | some x => rfl
    | none => simp only [Option.none_or]; split <;> simp_all

theorem foldl_applyTx_wf [LawfulTx T] (l : List T) {g : TxGraph T} (h : WF g) : WF (l.foldl applyTx g) := by
  induction l generalizing g with
  | nil => exact h
  | cons t l ih => exact ih (applyTx_wf h t)

theorem foldl_applyTxout_getTx (l : List (OutPoint × TxOut)) (g : TxGraph T) (k : Txid) :
    (l.foldl applyTxout g).getTx k = g.getTx k := by
  induction l generalizing g with
  | nil => rfl
  | cons e l ih => simp only [List.foldl_cons]; rw [ih, applyTxout_getTx]

theorem foldl_applyTxout_wf (l : List (OutPoint × TxOut)) {g : TxGraph T} (h : WF g) : WF (l.foldl applyTxout g) := by
  induction l generalizing g with
  | nil => exact h
  | cons t l ih => exact ih (applyTxout_wf h t)

theorem foldl_applyTxout_getTxout (m : OMap OutPoint TxOut) (g : TxGraph T) (o : OutPoint) :
    (m.entries.foldl applyTxout g).getTxout o =
      if g.getTx o.txid = none then (m.get o).or (g.getTxout o) else g.getTxout o := by
  have gen : ∀ (l : List (OutPoint × TxOut)) (g : TxGraph T), (l.map Prod.fst).Nodup →
      (l.foldl applyTxout g).getTxout o =
        if g.getTx o.txid = none then (OMap.rawGet o l).or (g.getTxout o) else g.getTxout o := by
    intro l
    induction l with
    | nil => intro g _; simp [OMap.rawGet]
    | cons e l ih =>
      intro g hnd
      simp only [List.map_cons, List.nodup_cons] at hnd
      simp only [List.foldl_cons]
      rw [ih _ hnd.2, applyTxout_getTx, applyTxout_getTxout]
      by_cases hn : g.getTx o.txid = none
      · rw [if_pos hn, if_pos hn]
        simp only [hn, and_true]
        by_cases he : o = e.1
        · subst he
          have : OMap.rawGet e.1 l = none := by
            cases hx : OMap.rawGet e.1 l with
            | none => rfl
            | some v => exact absurd (List.mem_map.2 ⟨_, OMap.mem_of_rawGet hx, rfl⟩) hnd.1
          rw [this]; simp [OMap.rawGet]
        · rw [if_neg he]
          simp only [OMap.rawGet, if_neg he]
      · rw [if_neg hn, if_neg hn, if_neg (fun h => hn h.2)]
  exact gen m.entries g (OMap.keys_nodup m)

variable [LinearOrder T]

theorem applyAdditions_getTx (g : TxGraph T) (a : Additions T) (k : Txid) :
    (g.applyAdditions a).getTx k = (lastTx a.tx.toList k).or (g.getTx k) := by
  unfold applyAdditions
  rw [foldl_applyTxout_getTx, foldl_applyTx_getTx]

theorem applyAdditions_getTxout_none {g : TxGraph T} {a : Additions T} {o : OutPoint}
    (h : (g.applyAdditions a).getTx o.txid = none) :
    (g.applyAdditions a).getTxout o = (a.txout.get o).or (g.getTxout o) := by
  rw [applyAdditions_getTx] at h
  have h1 : lastTx a.tx.toList o.txid = none := by
    cases hx : lastTx a.tx.toList o.txid with
    | none => rfl
    | some t => rw [hx] at h; cases h
  unfold applyAdditions
  rw [foldl_applyTxout_getTxout, foldl_applyTx_getTx, if_pos h, foldl_applyTx_getTxout, h1]

theorem applyAdditions_wf [LawfulTx T] {g : TxGraph T} (h : WF g) (a : Additions T) : WF (g.applyAdditions a) :=
  foldl_applyTxout_wf _ (foldl_applyTx_wf _ h)

theorem lastTx_some {l : List T} {k : Txid} {t : T} (h : lastTx l k = some t) : t ∈ l ∧ (asTx t).txid = k := by
  unfold lastTx at h
  have h1 := List.mem_of_find?_eq_some h
  have h2 := List.find?_some h
  exact ⟨by simpa using h1, by simpa using h2⟩

theorem lastTx_none {l : List T} {k : Txid} : lastTx l k = none ↔ ∀ t ∈ l, (asTx t).txid ≠ k := by
  unfold lastTx
  rw [List.find?_eq_none]; simp

/-- if at most one version of each txid occurs, `lastTx` finds it -/
theorem lastTx_eq {l : List T} {k : Txid} {t : T} (hu : ∀ t' ∈ l, (asTx t').txid = k → t' = t)
    (hm : t ∈ l) (hk : (asTx t).txid = k) : lastTx l k = some t := by
  cases h : lastTx l k with
  | none => exact absurd hk (lastTx_none.1 h t hm)
  | some t' => have := lastTx_some h; rw [hu t' this.1 this.2]

/-! ### determine_additions -/

theorem foldl_determinePartial (g : TxGraph T) (k : Txid) (l : List (Vout × TxOut)) (m : OMap OutPoint TxOut)
    (hnd : (l.map Prod.fst).Nodup) (o : OutPoint) :
    (l.foldl (determinePartial g k) m).get o =
      if o.txid = k then
        match OMap.rawGet o.vout l with
        | some x => if g.getTxout o ≠ some x then some x else m.get o
        | none => m.get o
      else m.get o := by
  induction l generalizing m with
  | nil => simp [OMap.rawGet]
  | cons e l ih =>
    simp only [List.map_cons, List.nodup_cons] at hnd
    simp only [List.foldl_cons]
    rw [ih _ hnd.2]
    unfold determinePartial
    simp only []
    by_cases hk : o.txid = k
    · rw [if_pos hk, if_pos hk]
      by_cases hv : o.vout = e.1
      · have ho : o = ⟨k, e.1⟩ := by cases o; simp_all
        have hn : OMap.rawGet o.vout l = none := by
          cases hx : OMap.rawGet o.vout l with
          | none => rfl
          | some v => rw [hv] at hx; exact absurd (List.mem_map.2 ⟨_, OMap.mem_of_rawGet hx, rfl⟩) hnd.1
        rw [hn]
        simp only [OMap.rawGet, if_pos hv]
        rw [← ho]
        split
        · rw [OMap.get_insert_self]
        · rfl
      · have ho : o ≠ ⟨k, e.1⟩ := fun h => hv (by rw [h])
        have hm : (if g.getTxout ⟨k, e.1⟩ ≠ some e.2 then m.insert ⟨k, e.1⟩ e.2 else m).get o = m.get o := by
          split
          · rw [OMap.get_insert, if_neg ho]
          · rfl
        rw [hm]
        simp only [OMap.rawGet, if_neg hv]
    · rw [if_neg hk, if_neg hk]
      have ho : o ≠ ⟨k, e.1⟩ := fun h => hk (by rw [h])
      split
      · rw [OMap.get_insert, if_neg ho]
      · rfl

theorem determineNode_txout (g : TxGraph T) (a : Additions T) (e : Txid × TxNode T) (o : OutPoint) :
    (determineNode g a e).txout.get o =
      if o.txid = e.1 ∧ g.getTx e.1 = none then
        match e.2 with
        | .whole _ => a.txout.get o
        | .partialOuts p => match p.get o.vout with
          | some x => if g.getTxout o ≠ some x then some x else a.txout.get o
          | none => a.txout.get o
      else a.txout.get o := by
  obtain ⟨k, n⟩ := e
  unfold determineNode
  simp only []
  cases hg : g.getTx k with
  | some t => simp
  | none =>
    simp only [Option.isSome_none, Bool.false_eq_true, if_false, and_true]
    cases n with
    | whole t =>
      simp only []
      split <;> split <;> rfl
    | partialOuts p =>
      simp only []
      rw [foldl_determinePartial g k p.entries a.txout (OMap.keys_nodup p) o]
      rfl

theorem determineNode_tx (g : TxGraph T) (a : Additions T) (e : Txid × TxNode T) (t : T) :
    (determineNode g a e).tx.mem t = true ↔
      (e.2 = .whole t ∧ g.getTx e.1 = none) ∨ a.tx.mem t = true := by
  obtain ⟨k, n⟩ := e
  unfold determineNode
  simp only []
  cases hg : g.getTx k with
  | some t => simp
  | none =>
    simp only [Option.isSome_none, Bool.false_eq_true, if_false, and_true]
    cases n with
    | whole t' =>
      simp only [TxNode.whole.injEq]
      rcases getTx_none.1 hg with h | ⟨p, h⟩ <;>
      · rw [h]; simp only []
        rw [OSet.mem_add]
        simp only [Bool.or_eq_true, decide_eq_true_eq]
        exact or_congr_left eq_comm
    | partialOuts p => simp

theorem determine_tx (g u : TxGraph T) (ho : HashOrder (Txid × TxNode T)) (t : T) :
    (g.determineAdditions u ho).tx.mem t = true ↔ ∃ k, u.getTx k = some t ∧ g.getTx k = none := by
  have gen : ∀ (l : List (Txid × TxNode T)) (a : Additions T), (l.foldl (determineNode g) a).tx.mem t = true ↔
      (∃ k, (k, .whole t) ∈ l ∧ g.getTx k = none) ∨ a.tx.mem t = true := by
    intro l
    induction l with
    | nil => intro a; simp
    | cons e l ih =>
      intro a
      simp only [List.foldl_cons]
      rw [ih, determineNode_tx]
      obtain ⟨k, n⟩ := e
      simp only [List.mem_cons, Prod.mk.injEq]
      constructor
      · rintro (⟨k', h1, h2⟩ | ⟨h1, h2⟩ | h)
        · exact Or.inl ⟨k', Or.inr h1, h2⟩
        · exact Or.inl ⟨k, Or.inl ⟨rfl, h1.symm⟩, h2⟩
        · exact Or.inr h
      · rintro (⟨k', ⟨h1, h1'⟩ | h1, h2⟩ | h)
        · subst h1; exact Or.inr (Or.inl ⟨h1'.symm, h2⟩)
        · exact Or.inl ⟨k', h1, h2⟩
        · exact Or.inr (Or.inr h)
  unfold determineAdditions
  rw [gen]
  simp only [HashOrder.mem, OMap.mem_entries, getTx_eq, Additions.empty, OSet.mem_empty, Bool.false_eq_true, or_false]

theorem determine_txout (g u : TxGraph T) (ho : HashOrder (Txid × TxNode T)) (o : OutPoint) :
    (g.determineAdditions u ho).txout.get o =
      if g.getTx o.txid = none ∧ u.getTx o.txid = none ∧ g.getTxout o ≠ u.getTxout o then u.getTxout o else none := by
  have h := OMap.foldl_perm u.txs (ho.perm u.txs.entries) (ho.isPerm _) (determineNode g)
    (fun a k => fun (v : Vout) => a.txout.get ⟨k, v⟩)
    (fun k v old => fun v' => if g.getTx k = none then
        match v with
        | .whole _ => old v'
        | .partialOuts p => match p.get v' with
          | some x => if g.getTxout ⟨k, v'⟩ ≠ some x then some x else old v'
          | none => old v'
      else old v')
    (Additions.empty : Additions T)
    (by
      intro s k v k2
      funext v'
      rw [determineNode_txout]
      by_cases hk : k2 = k
      · subst hk; simp
      · simp [hk])
    o.txid
  have h2 := congrFun h o.vout
  have h3 : (g.determineAdditions u ho).txout.get o = _ := h2
  rw [h3]
  have he : (Additions.empty : Additions T).txout.get ⟨o.txid, o.vout⟩ = none := rfl
  cases hu : u.txs.get o.txid with
  | none =>
    have hx : u.getTxout o = none := by unfold getTxout; rw [hu]
    simp [he, hx]
  | some n =>
    simp only [he]
    by_cases hg : g.getTx o.txid = none
    · simp only [hg, if_true, true_and]
      cases n with
      | whole t =>
        have : u.getTx o.txid = some t := getTx_eq.2 hu
        simp [this]
      | partialOuts p =>
        have h4 : u.getTx o.txid = none := getTx_none.2 (Or.inr ⟨p, hu⟩)
        have h5 : u.getTxout o = p.get o.vout := by unfold getTxout; rw [hu]
        simp only [h4, h5, true_and]
        cases p.get o.vout with
        | none => simp
        | some x => rfl
    · simp [hg]

theorem determine_lastTx {g u : TxGraph T} (hu : KeysOk u) (ho : HashOrder (Txid × TxNode T)) (k : Txid) :
    lastTx (g.determineAdditions u ho).tx.toList k = if g.getTx k = none then u.getTx k else none := by
  have hm : ∀ t, t ∈ (g.determineAdditions u ho).tx.toList ↔ ∃ k, u.getTx k = some t ∧ g.getTx k = none := by
    intro t; rw [OSet.mem_toList, determine_tx]
  by_cases hg : g.getTx k = none
  · rw [if_pos hg]
    cases hx : u.getTx k with
    | some t =>
      apply lastTx_eq _ ((hm t).2 ⟨k, hx, hg⟩) (hu k t hx)
      intro t' ht' hk'
      obtain ⟨k', h1, h2⟩ := (hm t').1 ht'
      have := hu k' t' h1
      rw [hk'] at this; subst this
      rw [hx] at h1; cases h1; rfl
    | none =>
      apply lastTx_none.2
      intro t ht hk
      obtain ⟨k', h1, h2⟩ := (hm t).1 ht
      have := hu k' t h1
      rw [hk] at this; subst this
      rw [hx] at h1; cases h1
  · rw [if_neg hg]
    apply lastTx_none.2
    intro t ht hk
    obtain ⟨k', h1, h2⟩ := (hm t).1 ht
    have := hu k' t h1
    rw [hk] at this; subst this
    exact hg h2

theorem applyUpdate_getTx {g u : TxGraph T} (hu : KeysOk u) (ho : HashOrder (Txid × TxNode T)) (k : Txid) :
    (g.applyUpdate u ho).1.getTx k = (g.getTx k).or (u.getTx k) := by
  show (g.applyAdditions _).getTx k = _
  rw [applyAdditions_getTx, determine_lastTx hu]
  cases g.getTx k with
  | none => simp
  | some t => simp

theorem applyUpdate_getTxout {g u : TxGraph T} (hu : KeysOk u) (ho : HashOrder (Txid × TxNode T)) (o : OutPoint) :
    (g.applyUpdate u ho).1.getTxout o =
      match (g.getTx o.txid).or (u.getTx o.txid) with
      | some t => (asTx t).output[o.vout.val]?
      | none => (u.getTxout o).or (g.getTxout o) := by
  have h1 := applyUpdate_getTx (g := g) hu ho o.txid
  cases h : (g.getTx o.txid).or (u.getTx o.txid) with
  | some t =>
    rw [h] at h1
    exact getTxout_whole h1
  | none =>
    rw [h] at h1
    have h2 : (g.applyUpdate u ho).1.getTxout o = _ := applyAdditions_getTxout_none (g := g) h1
    rw [h2, determine_txout]
    have hgn : g.getTx o.txid = none := by cases hx : g.getTx o.txid <;> simp_all
    have hun : u.getTx o.txid = none := by cases hx : u.getTx o.txid <;> simp_all
    simp only [hgn, hun, true_and]
    by_cases he : g.getTxout o = u.getTxout o
    · simp [he]
    · simp [he]

theorem single_whole_getTx (t : T) (k : Txid) :
    (⟨OMap.empty.insert (asTx t).txid (.whole t), OMap.empty⟩ : TxGraph T).getTx k =
      if k = (asTx t).txid then some t else none := by
  unfold getTx; simp only [OMap.get_insert]; split <;> simp_all

theorem single_whole_keysOk (t : T) : KeysOk (⟨OMap.empty.insert (asTx t).txid (.whole t), OMap.empty⟩ : TxGraph T) := by
  intro k x h; rw [single_whole_getTx] at h; split at h
  · next he => cases h; exact he.symm
  · cases h

theorem single_partial_getTx (o : OutPoint) (x : TxOut) (k : Txid) :
    (⟨OMap.empty.insert o.txid (.partialOuts (OMap.empty.insert o.vout x)), OMap.empty⟩ : TxGraph T).getTx k = none := by
  unfold getTx; simp only [OMap.get_insert]; split <;> simp_all

theorem single_partial_getTxout (o : OutPoint) (x : TxOut) (o' : OutPoint) :
    (⟨OMap.empty.insert o.txid (.partialOuts (OMap.empty.insert o.vout x)), OMap.empty⟩ : TxGraph T).getTxout o' =
      if o' = o then some x else none := by
  unfold getTxout
  simp only [OMap.get_insert]
  by_cases h : o'.txid = o.txid
  · simp only [if_pos h, OMap.get_insert, OMap.get_empty]
    by_cases hv : o'.vout = o.vout
    · have : o' = o := by cases o; cases o'; simp_all
      simp [this]
    · have : o' ≠ o := fun e => hv (by rw [e])
      simp [this, hv]
  · have : o' ≠ o := fun e => h (by rw [e])
    simp [this, h]

theorem insertTx_eq_update (g : TxGraph T) (t : T) :
    g.insertTx t = g.applyUpdate ⟨OMap.empty.insert (asTx t).txid (.whole t), OMap.empty⟩ (HashOrder.id _) := rfl

theorem insertTxout_eq_update (g : TxGraph T) (o : OutPoint) (x : TxOut) :
    g.insertTxout o x = g.applyUpdate
      ⟨OMap.empty.insert o.txid (.partialOuts (OMap.empty.insert o.vout x)), OMap.empty⟩ (HashOrder.id _) := rfl

theorem insertTx_getTx (g : TxGraph T) (t : T) (k : Txid) :
    (g.insertTx t).1.getTx k = (g.getTx k).or (if k = (asTx t).txid then some t else none) := by
  rw [insertTx_eq_update, applyUpdate_getTx (single_whole_keysOk t), single_whole_getTx]

theorem insertTxout_getTx (g : TxGraph T) (o : OutPoint) (x : TxOut) (k : Txid) :
    (g.insertTxout o x).1.getTx k = g.getTx k := by
  rw [insertTxout_eq_update, applyUpdate_getTx (fun k t h => by rw [single_partial_getTx] at h; cases h),
    single_partial_getTx]; simp

theorem reachable_wf [LawfulTx T] {g : TxGraph T} (h : Reachable g) : WF g := by
  induction h with
  | empty => exact empty_wf
  | insertTx t _ ih => exact applyAdditions_wf ih _
  | insertTxout o x _ ih => exact applyAdditions_wf ih _
  | applyUpdate ho _ _ ih _ => exact applyAdditions_wf ih _
  | applyAdditions a _ ih => exact applyAdditions_wf ih _

end Verif.TxGraph
