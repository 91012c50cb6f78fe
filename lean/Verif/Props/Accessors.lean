import Verif.Props.ChainGraph
import Mathlib.Data.List.Induction
import Mathlib.Data.List.Nodup

/-!
# Property C58: the read accessors of the chain, the graph and the changesets are exact

`checkpoints()`, `tx_position`, `get_tx` and `get_txout` are the basic observations; every other accessor is related to them.
-/

set_option linter.unusedSectionVars false

namespace Verif.Props
open Verif Verif.Spec Verif.SparseChain
variable {P : Type} [LinearOrder P] [ChainPosition P] [LawfulChainPosition P]

/-- **C58** `checkpoint_at` looks up the height in `checkpoints()` -/
theorem C58_checkpoint_at (c : SparseChain P) (h : Nat) (b : BlockId) :
    c.checkpointAt h = some b ↔ b.height = h ∧ c.checkpoints.get h = some b.hash := by
  obtain ⟨bh, bx⟩ := b
  unfold checkpointAt
  cases c.checkpoints.get h with
  | none => simp
  | some x => simp [BlockId.mk.injEq, eq_comm]

/-- **C58** `latest_checkpoint` is the checkpoint of the largest height, `None` iff there are no checkpoints -/
theorem C58_latest_checkpoint (c : SparseChain P) :
    (∀ b, c.latestCheckpoint = some b ↔ c.checkpoints.get b.height = some b.hash ∧
      ∀ h x, c.checkpoints.get h = some x → h ≤ b.height) ∧
    (c.latestCheckpoint = none ↔ ∀ h, c.checkpoints.get h = none) := by
  constructor
  · intro b
    obtain ⟨bh, bx⟩ := b
    rw [← OMap.last?_eq_some]
    unfold latestCheckpoint
    cases c.checkpoints.last? with
    | none => simp
    | some e => obtain ⟨h, x⟩ := e; simp
  · unfold latestCheckpoint
    rw [Option.map_eq_none_iff, OMap.last?_eq_none, OMap.eq_empty_iff]

/-- **C58** `range_checkpoints` lists exactly the checkpoints in the range, in ascending order; it panics exactly for the
ranges for which `BTreeMap::range` does -/
theorem C58_range_checkpoints (c : SparseChain P) (lo hi : Bound Nat) :
    (c.rangeCheckpoints lo hi = none ↔ Bound.rangePanics lo hi = true) ∧
    ∀ l, c.rangeCheckpoints lo hi = some l →
      l.Pairwise (fun a b => a.height < b.height) ∧
      ∀ b, b ∈ l ↔ c.checkpoints.get b.height = some b.hash ∧ InRange lo hi b.height := by
  unfold rangeCheckpoints
  constructor
  · by_cases h : Bound.rangePanics lo hi = true
    · simp [h]
    · simp [h]
  · intro l hl
    by_cases h : Bound.rangePanics lo hi = true
    · rw [if_pos h] at hl; cases hl
    · rw [if_neg h] at hl
      have hl := (Option.some.inj hl).symm
      subst hl
      constructor
      · rw [List.pairwise_map]
        exact (c.checkpoints.sorted.filter _)
      · intro b
        obtain ⟨bh, bx⟩ := b
        simp only [List.mem_map, List.mem_filter, Bool.and_eq_true, inRange_iff]
        constructor
        · rintro ⟨⟨h1, x1⟩, ⟨hm, hr⟩, he⟩
          simp only [BlockId.mk.injEq] at he
          obtain ⟨rfl, rfl⟩ := he
          exact ⟨OMap.mem_entries.mp hm, hr⟩
        · rintro ⟨hm, hr⟩
          exact ⟨(bh, bx), ⟨OMap.mem_entries.mpr hm, hr⟩, rfl⟩

/-- **C58** `from_checkpoints`: the last block given for a height is its checkpoint; no transactions, no limit -/
theorem C58_from_checkpoints (l : List BlockId) :
    (∀ h x, (fromCheckpoints l : SparseChain P).checkpoints.get h = some x ↔
      ∃ l1 l2, l = l1 ++ ⟨h, x⟩ :: l2 ∧ ∀ b ∈ l2, b.height ≠ h) ∧
    (∀ t, (fromCheckpoints l : SparseChain P).txPosition t = none) ∧
    (fromCheckpoints l : SparseChain P).txids = [] ∧
    (fromCheckpoints l : SparseChain P).checkpointLimit = none := by
  refine ⟨?_, fun _ => rfl, rfl, rfl⟩
  intro h x
  show (OMap.ofList (l.map (fun b => (b.height, b.hash)))).get h = some x ↔ _
  induction l using List.reverseRecOn with
  | nil =>
    simp [OMap.ofList, OMap.get, OMap.empty, OMap.rawGet]
  | append_singleton l b ih =>
    have hof : OMap.ofList ((l ++ [b]).map (fun b : BlockId => (b.height, b.hash)))
        = (OMap.ofList (l.map (fun b : BlockId => (b.height, b.hash)))).insert b.height b.hash := by
      simp [OMap.ofList]
    rw [hof, OMap.get_insert]
    by_cases hb : h = b.height
    · rw [if_pos hb]
      constructor
      · intro e
        refine ⟨l, [], ?_, by simp⟩
        obtain ⟨bh, bx⟩ := b
        simp only at hb e
        rw [hb, Option.some.inj e]
      · rintro ⟨l1, l2, he, hn⟩
        rcases List.eq_nil_or_concat l2 with rfl | ⟨l3, y, rfl⟩
        · have := List.append_inj' he rfl
          have := (List.cons.inj this.2).1
          rw [this]
        · exfalso
          rw [List.concat_eq_append, ← List.cons_append, ← List.append_assoc] at he
          have := List.append_inj' he rfl
          have := (List.cons.inj this.2).1
          exact hn y (by simp) (by rw [← this]; exact hb.symm)
    · rw [if_neg hb, ih]
      constructor
      · rintro ⟨l1, l2, he, hn⟩
        refine ⟨l1, l2 ++ [b], by rw [he]; simp, ?_⟩
        intro y hy
        rcases List.mem_append.mp hy with hy | hy
        · exact hn y hy
        · rw [List.mem_singleton.mp hy]; exact fun e => hb e.symm
      · rintro ⟨l1, l2, he, hn⟩
        rcases List.eq_nil_or_concat l2 with rfl | ⟨l3, y, rfl⟩
        · have := List.append_inj' he rfl
          have := (List.cons.inj this.2).1
          exact absurd (by rw [this]) hb
        · rw [List.concat_eq_append, ← List.cons_append, ← List.append_assoc] at he
          have := List.append_inj' he rfl
          exact ⟨l1, l3, this.1, fun z hz => hn z (by simp [hz])⟩

/-- **C58** `is_empty` of a chain: no checkpoint and no transaction -/
theorem C58_chain_is_empty (c : SparseChain P) :
    c.isEmpty = true ↔ (∀ h, c.checkpoints.get h = none) ∧ ∀ t, c.txPosition t = none := by
  unfold SparseChain.isEmpty txPosition
  rw [Bool.and_eq_true, OMap.isEmpty_iff, OMap.isEmpty_iff, OMap.eq_empty_iff, OMap.eq_empty_iff]

/-- **C58** `is_empty` of a changeset: it says nothing about any height or transaction -/
theorem C58_changeset_is_empty (cs : ChangeSet P) :
    (cs.isEmpty = true ↔ cs = ChangeSet.empty) ∧
    (cs.isEmpty = true ↔ (∀ h, cs.checkpoints.get h = none) ∧ ∀ t, cs.txids.get t = none) := by
  have h2 : cs.isEmpty = true ↔ (∀ h, cs.checkpoints.get h = none) ∧ ∀ t, cs.txids.get t = none := by
    unfold ChangeSet.isEmpty
    rw [Bool.and_eq_true, OMap.isEmpty_iff, OMap.isEmpty_iff, OMap.eq_empty_iff, OMap.eq_empty_iff]
  refine ⟨?_, h2⟩
  rw [h2, ← OMap.eq_empty_iff, ← OMap.eq_empty_iff]
  obtain ⟨a, b⟩ := cs
  simp [ChangeSet.empty]

/-- **C58** `changeset_additions`: the transactions the changeset gives a position and the chain does not have, once each -/
theorem C58_changeset_additions (c : SparseChain P) (cs : ChangeSet P) :
    (c.changesetAdditions cs).Nodup ∧
    ∀ t, t ∈ c.changesetAdditions cs ↔ (∃ p, cs.txids.get t = some (some p)) ∧ c.txPosition t = none := by
  unfold changesetAdditions
  constructor
  · exact (OMap.keys_nodup cs.txids).sublist (List.Sublist.map _ List.filter_sublist)
  · intro t
    simp only [List.mem_map, List.mem_filter, Bool.and_eq_true, Option.isNone_iff_eq_none]
    constructor
    · rintro ⟨⟨k, o⟩, ⟨hm, ho, hn⟩, rfl⟩
      obtain ⟨p, hp⟩ := Option.isSome_iff_exists.mp ho
      exact ⟨⟨p, by rw [← hp]; exact OMap.mem_entries.mp hm⟩, hn⟩
    · rintro ⟨⟨p, hp⟩, hn⟩
      exact ⟨(t, some p), ⟨OMap.mem_entries.mpr hp, rfl, hn⟩, rfl⟩

example : exChain.latestCheckpoint = some ⟨8, 18⟩ ∧ exChain.checkpointAt 5 = some ⟨5, 15⟩ ∧
    exChain.rangeCheckpoints (.excluded 1) (.included 8) = some [⟨5, 15⟩, ⟨8, 18⟩] ∧
    exChain.rangeCheckpoints (.included 5) (.excluded 1) = none ∧ exChain.isEmpty = false ∧
    exChain.changesetAdditions exReorg.initialChangeset = [] ∧
    SparseChain.empty.changesetAdditions exReorg.initialChangeset = [9] := by decide

/-! ## Transactions and the graph -/

/-- **C58** the null outpoint is all zeros with the largest output index, and a coinbase transaction is one with that as its
only input -/
theorem C58_coinbase (o : OutPoint) (t : Tx) :
    (o.isNull = true ↔ o.txid.val = 0 ∧ o.vout.val = 2 ^ 32 - 1) ∧
    (t.isCoinBase = true ↔ ∃ i, t.input = [i] ∧ i.isNull = true) := by
  constructor
  · unfold OutPoint.isNull
    rw [Bool.and_eq_true, decide_eq_true_iff, decide_eq_true_iff, Fin.ext_iff, Fin.ext_iff]
    rfl
  · unfold Tx.isCoinBase
    obtain ⟨_, input, _⟩ := t
    cases input with
    | nil => simp
    | cons a l =>
      cases l with
      | nil => simp
      | cons b l => simp

variable {T : Type} [AsTransaction T]

/-- **C58** `is_empty` of a graph: no full transaction and no output -/
theorem C58_graph_is_empty [LawfulTx T] [LinearOrder T] (g : TxGraph T) (hg : TxGraph.Reachable g) :
    g.isEmpty = true ↔ (∀ t, g.getTx t = none) ∧ ∀ o, g.getTxout o = none := by
  unfold TxGraph.isEmpty
  rw [OMap.isEmpty_iff]
  constructor
  · intro h
    have h' := fun k => OMap.eq_empty_iff.mp h k
    constructor
    · intro t; unfold TxGraph.getTx; rw [h' t]
    · intro o; unfold TxGraph.getTxout; rw [h' o.txid]
  · rintro ⟨h1, h2⟩
    rw [OMap.eq_empty_iff]
    intro k
    rcases TxGraph.getTx_none.mp (h1 k) with h | ⟨p, hp⟩
    · exact h
    · exfalso
      refine (TxGraph.reachable_wf hg).partials k p hp (OMap.eq_empty_iff.mpr ?_)
      intro v
      have := h2 ⟨k, v⟩
      unfold TxGraph.getTxout at this
      rw [hp] at this
      exact this

/-- **C58** `full_transactions` lists exactly the transactions `get_tx` returns, once each -/
theorem C58_full_transactions [LawfulTx T] [LinearOrder T] (g : TxGraph T) (hg : TxGraph.Reachable g) :
    (g.fullTransactions.map (fun t => (asTx t).txid)).Nodup ∧
    ∀ t, t ∈ g.fullTransactions ↔ g.getTx (asTx t).txid = some t := by
  have hk := (TxGraph.reachable_wf hg).keys
  have hmem : ∀ k n, (k, n) ∈ g.txs.entries → ∀ t, n = .whole t → (asTx t).txid = k := by
    intro k n hm t ht
    subst ht
    exact hk k t (TxGraph.getTx_eq.mpr (OMap.mem_entries.mp hm))
  constructor
  · have : g.fullTransactions.map (fun t => (asTx t).txid) =
        (g.txs.entries.filter (fun e => match e.2 with | .whole _ => true | .partialOuts _ => false)).map Prod.fst := by
      unfold TxGraph.fullTransactions
      revert hmem
      generalize g.txs.entries = l
      intro hmem
      induction l with
      | nil => rfl
      | cons e l ih =>
        obtain ⟨k, n⟩ := e
        have ih := ih (fun k n hm => hmem k n (List.mem_cons_of_mem _ hm))
        cases n with
        | whole t =>
          simp only [List.filterMap_cons, List.filter_cons, if_true, List.map_cons, ih, hmem k _ (List.mem_cons_self ..) t rfl]
        | partialOuts p => simpa [List.filterMap_cons, List.filter_cons] using ih
    rw [this]
    exact (OMap.keys_nodup g.txs).sublist (List.Sublist.map _ List.filter_sublist)
  · intro t
    unfold TxGraph.fullTransactions
    rw [List.mem_filterMap]
    constructor
    · rintro ⟨⟨k, n⟩, hm, he⟩
      cases n with
      | whole x =>
        have hx : x = t := Option.some.inj he
        subst hx
        rw [hmem k _ hm x rfl]
        exact TxGraph.getTx_eq.mpr (OMap.mem_entries.mp hm)
      | partialOuts p => cases he
    · intro h
      exact ⟨(_, .whole t), OMap.mem_entries.mpr (TxGraph.getTx_eq.mp h), rfl⟩

/-- **C58** `partial_transactions` lists exactly the transactions of which only outputs are known, with exactly these outputs -/
theorem C58_partial_transactions (g : TxGraph T) :
    (g.partialTransactions.map Prod.fst).Nodup ∧
    ∀ k p, (k, p) ∈ g.partialTransactions →
      g.getTx k = none ∧ ∀ v, p.get v = g.getTxout ⟨k, v⟩ := by
  constructor
  · have : (g.partialTransactions.map Prod.fst).Sublist g.txs.keys := by
      unfold TxGraph.partialTransactions OMap.keys
      generalize g.txs.entries = l
      induction l with
      | nil => exact List.Sublist.refl _
      | cons e l ih =>
        obtain ⟨k, n⟩ := e
        cases n with
        | whole t => simpa [List.filterMap_cons] using ih.cons k
        | partialOuts p => simpa [List.filterMap_cons] using ih.cons_cons k
    exact (OMap.keys_nodup g.txs).sublist this
  · intro k p hm
    unfold TxGraph.partialTransactions at hm
    rw [List.mem_filterMap] at hm
    obtain ⟨⟨k', n⟩, hm, he⟩ := hm
    cases n with
    | whole t => cases he
    | partialOuts q =>
      have he := Option.some.inj he
      have hk : k' = k := congrArg Prod.fst he
      have hq : q = p := congrArg Prod.snd he
      subst hk; subst hq
      have hget := OMap.mem_entries.mp hm
      refine ⟨TxGraph.getTx_none.mpr (Or.inr ⟨q, hget⟩), ?_⟩
      intro v
      unfold TxGraph.getTxout
      rw [hget]

/-- **C58** an output of a transaction that is not there in full is found in `partial_transactions` -/
theorem C58_partial_transactions_complete (g : TxGraph T) (o : OutPoint) (x : TxOut)
    (h1 : g.getTx o.txid = none) (h2 : g.getTxout o = some x) :
    ∃ p, (o.txid, p) ∈ g.partialTransactions ∧ p.get o.vout = some x := by
  rcases TxGraph.getTx_none.mp h1 with h | ⟨p, hp⟩
  · unfold TxGraph.getTxout at h2
    rw [h] at h2
    cases h2
  · refine ⟨p, ?_, ?_⟩
    · unfold TxGraph.partialTransactions
      rw [List.mem_filterMap]
      exact ⟨_, OMap.mem_entries.mpr hp, rfl⟩
    · unfold TxGraph.getTxout at h2
      rw [hp] at h2
      exact h2

/-- the outputs of a transaction as an indexed map (their number fits `u32`) -/
theorem ofList_outputs (l : List TxOut) (hl : l.length ≤ 2 ^ 32) (v : Vout) :
    (OMap.ofList (l.zipIdx.map (fun e => ((Fin.ofNat _ e.2 : Vout), e.1)))).get v = l[v.val]? := by
  have hinj : ∀ x, (v, x) ∈ l.zipIdx.map (fun e => ((Fin.ofNat _ e.2 : Vout), e.1)) ↔ l[v.val]? = some x := by
    intro x
    rw [List.mem_map]
    constructor
    · rintro ⟨⟨y, i⟩, hm, he⟩
      have hi := List.mem_zipIdx_iff_getElem?.mp hm
      obtain ⟨hlt, _⟩ := List.getElem?_eq_some_iff.mp hi
      have hv : (Fin.ofNat (2 ^ 32) i : Vout) = v := congrArg Prod.fst he
      have hy : y = x := congrArg Prod.snd he
      have : v.val = i := by
        rw [← hv]
        exact Nat.mod_eq_of_lt (Nat.lt_of_lt_of_le hlt hl)
      rw [this, ← hy]
      exact hi
    · intro h
      refine ⟨(x, v.val), List.mem_zipIdx_iff_getElem?.mpr h, ?_⟩
      exact Prod.ext (Fin.ext (Nat.mod_eq_of_lt v.isLt)) rfl
  cases hx : l[v.val]? with
  | none =>
    exact OMap.get_ofList_none (fun x hm => by rw [(hinj x).mp hm] at hx; cases hx)
  | some x =>
    refine OMap.get_ofList_of_fun ?_ ((hinj x).mpr hx)
    intro y hy
    have := (hinj y).mp hy
    rw [hx] at this
    exact (Option.some.inj this).symm

/-- **C58** `txouts(txid)`: `None` iff nothing is known of the transaction, otherwise exactly the outputs `get_txout` knows -/
theorem C58_txouts [LawfulTx T] [LinearOrder T] (g : TxGraph T) (hg : TxGraph.Reachable g) (k : Txid) :
    (g.txouts k = none ↔ g.getTx k = none ∧ ∀ v, g.getTxout ⟨k, v⟩ = none) ∧
    ∀ m, g.txouts k = some m → ∀ v, m.get v = g.getTxout ⟨k, v⟩ := by
  have hp := (TxGraph.reachable_wf hg).partials k
  have hto : ∀ v, g.getTxout ⟨k, v⟩ = (match g.txs.get k with
      | some (.whole t) => (asTx t).output[v.val]?
      | some (.partialOuts p) => p.get v
      | none => none) := fun v => rfl
  simp only [hto]
  unfold TxGraph.txouts TxGraph.getTx
  cases hget : g.txs.get k with
  | none => simp
  | some n =>
    cases n with
    | whole t =>
      refine ⟨by simp, ?_⟩
      intro m hm v
      have hm := (Option.some.inj hm).symm
      subst hm
      exact ofList_outputs _ (asTx t).small v
    | partialOuts p =>
      constructor
      · constructor
        · intro h; cases h
        · rintro ⟨-, h⟩
          exact absurd (OMap.eq_empty_iff.mpr h) (hp p hget)
      · intro m hm v
        have hm := (Option.some.inj hm).symm
        subst hm
        rfl

/-- **C58** `all_txouts` lists exactly the outputs `get_txout` knows, once each, whatever the order of the hash map -/
theorem C58_all_txouts (g : TxGraph T) (ho : HashOrder (Txid × TxNode T)) :
    ((g.allTxouts ho).map Prod.fst).Nodup ∧
    ∀ o x, (o, x) ∈ g.allTxouts ho ↔ g.getTxout o = some x := by
  have hnode : ∀ (k : Txid) (n : TxNode T) (o : OutPoint) (x : TxOut), (o, x) ∈ TxGraph.nodeTxouts (k, n) ↔ o.txid = k ∧
      (match n with | .whole t => (asTx t).output[o.vout.val]? | .partialOuts p => p.get o.vout) = some x := by
    intro k n o x
    obtain ⟨ot, ov⟩ := o
    unfold TxGraph.nodeTxouts
    cases n with
    | whole t =>
      simp only [List.mem_map, Prod.mk.injEq, OutPoint.mk.injEq]
      constructor
      · rintro ⟨⟨y, i⟩, hm, ⟨hk, hv⟩, hy⟩
        have hi := List.mem_zipIdx_iff_getElem?.mp hm
        obtain ⟨hlt, _⟩ := List.getElem?_eq_some_iff.mp hi
        refine ⟨hk.symm, ?_⟩
        have : ov.val = i := by
          rw [← hv]
          exact Nat.mod_eq_of_lt (Nat.lt_of_lt_of_le hlt (asTx t).small)
        rw [this, ← hy]
        exact hi
      · rintro ⟨hk, h⟩
        exact ⟨(x, ov.val), List.mem_zipIdx_iff_getElem?.mpr h, ⟨hk.symm, Fin.ext (Nat.mod_eq_of_lt ov.isLt)⟩, rfl⟩
    | partialOuts p =>
      simp only [List.mem_map, Prod.mk.injEq, OutPoint.mk.injEq]
      constructor
      · rintro ⟨⟨v, y⟩, hm, ⟨hk, hv⟩, hy⟩
        have := OMap.mem_entries.mp hm
        simp only at hv hy
        rw [← hv, ← hy]
        exact ⟨hk.symm, this⟩
      · rintro ⟨hk, h⟩
        exact ⟨(ov, x), OMap.mem_entries.mpr h, ⟨hk.symm, rfl⟩, rfl⟩
  unfold TxGraph.allTxouts
  constructor
  · have hnd : ((ho.perm g.txs.entries).map Prod.fst).Nodup :=
      ((ho.isPerm _).map Prod.fst).nodup_iff.mpr (OMap.keys_nodup g.txs)
    rw [List.map_flatMap, List.nodup_flatMap]
    constructor
    · rintro ⟨k, n⟩ _
      unfold TxGraph.nodeTxouts
      cases n with
      | whole t =>
        simp only [List.map_map]
        rw [List.nodup_iff_pairwise_ne, List.pairwise_map]
        have h1 : ((asTx t).output.zipIdx.map Prod.snd).Pairwise (· < ·) := by
          rw [List.zipIdx_map_snd]
          exact List.pairwise_lt_range'
        rw [List.pairwise_map] at h1
        refine h1.imp_of_mem ?_
        rintro ⟨y, i⟩ ⟨z, j⟩ hi hj hlt heq
        simp only [Function.comp, OutPoint.mk.injEq, true_and] at heq
        obtain ⟨hi', -⟩ := List.getElem?_eq_some_iff.mp (List.mem_zipIdx_iff_getElem?.mp hi)
        obtain ⟨hj', -⟩ := List.getElem?_eq_some_iff.mp (List.mem_zipIdx_iff_getElem?.mp hj)
        have := congrArg Fin.val heq
        rw [show (Fin.ofNat (2 ^ 32) i).val = i from Nat.mod_eq_of_lt (Nat.lt_of_lt_of_le hi' (asTx t).small),
          show (Fin.ofNat (2 ^ 32) j).val = j from Nat.mod_eq_of_lt (Nat.lt_of_lt_of_le hj' (asTx t).small)] at this
        simp only at hlt
        omega
      | partialOuts p =>
        simp only [List.map_map]
        have h1 := OMap.keys_nodup p
        rw [List.nodup_iff_pairwise_ne, List.pairwise_map]
        rw [OMap.keys, List.nodup_iff_pairwise_ne, List.pairwise_map] at h1
        refine h1.imp ?_
        intro a b hne heq
        simp only [Function.comp, OutPoint.mk.injEq, true_and] at heq
        exact hne heq
    · rw [List.nodup_iff_pairwise_ne, List.pairwise_map] at hnd
      refine hnd.imp ?_
      rintro ⟨k1, n1⟩ ⟨k2, n2⟩ hne
      intro o h1 h2
      rw [List.mem_map] at h1 h2
      obtain ⟨⟨o1, x1⟩, h1, rfl⟩ := h1
      obtain ⟨⟨o2, x2⟩, h2, he⟩ := h2
      have e1 := ((hnode _ _ _ _).mp h1).1
      have e2 := ((hnode _ _ _ _).mp h2).1
      simp only at he
      exact hne (by rw [← e1, ← e2, he])
  · intro o x
    rw [List.mem_flatMap]
    unfold TxGraph.getTxout
    constructor
    · rintro ⟨⟨k, n⟩, hm, h⟩
      obtain ⟨hk, h⟩ := (hnode k n o x).mp h
      rw [hk, OMap.mem_entries.mp (ho.mem.mp hm)]
      cases n <;> exact h
    · intro h
      cases hget : g.txs.get o.txid with
      | none => rw [hget] at h; cases h
      | some n =>
        rw [hget] at h
        refine ⟨(o.txid, n), ho.mem.mpr (OMap.mem_entries.mpr hget), (hnode _ n o x).mpr ⟨rfl, ?_⟩⟩
        cases n <;> exact h

variable [LinearOrder T]

/-- **C58** additions: `is_empty` iff they hold nothing; `txouts` are the outputs of their transactions and their outputs -/
theorem C58_additions (a : Additions T) :
    (a.isEmpty = true ↔ a = Additions.empty) ∧
    (∀ o x, (o, x) ∈ a.txouts ↔
      (∃ t, a.tx.mem t = true ∧ o.txid = (asTx t).txid ∧ (asTx t).output[o.vout.val]? = some x) ∨
      a.txout.get o = some x) := by
  constructor
  · unfold Additions.isEmpty
    rw [Bool.and_eq_true, OMap.isEmpty_iff, OMap.isEmpty_iff]
    obtain ⟨x, y⟩ := a
    simp [Additions.empty]
  · intro o x
    unfold Additions.txouts
    rw [List.mem_append, List.mem_flatMap, OMap.mem_entries]
    refine or_congr ?_ Iff.rfl
    obtain ⟨ot, ov⟩ := o
    have key : ∀ t : T, ((⟨ot, ov⟩ : OutPoint), x) ∈ (asTx t).txouts ↔
        ot = (asTx t).txid ∧ (asTx t).output[ov.val]? = some x := by
      intro t
      unfold Tx.txouts
      simp only [List.mem_map, Prod.mk.injEq, OutPoint.mk.injEq]
      constructor
      · rintro ⟨⟨y, i⟩, hm, ⟨hk, hv⟩, hy⟩
        have hi := List.mem_zipIdx_iff_getElem?.mp hm
        obtain ⟨hlt, _⟩ := List.getElem?_eq_some_iff.mp hi
        refine ⟨hk.symm, ?_⟩
        have : ov.val = i := by
          rw [← hv]
          exact Nat.mod_eq_of_lt (Nat.lt_of_lt_of_le hlt (asTx t).small)
        rw [this, ← hy]
        exact hi
      · rintro ⟨hk, h⟩
        exact ⟨(x, ov.val), List.mem_zipIdx_iff_getElem?.mpr h, ⟨hk.symm, Fin.ext (Nat.mod_eq_of_lt ov.isLt)⟩, rfl⟩
    constructor
    · rintro ⟨t, ht, h⟩
      exact ⟨t, OSet.mem_toList.mp ht, (key t).mp h⟩
    · rintro ⟨t, ht, h⟩
      exact ⟨t, OSet.mem_toList.mpr ht, (key t).mpr h⟩

/-! ## Chain graphs and their changesets -/

/-- **C58** changesets of a chain graph: `is_empty` iff they hold nothing; `contains_eviction` iff some transaction is removed -/
theorem C58_chain_graph_changeset (cs : CGChangeSet P T) :
    (cs.isEmpty = true ↔ cs = CGChangeSet.empty) ∧
    (cs.containsEviction = true ↔ ∃ t, cs.chain.txids.get t = some none) := by
  constructor
  · unfold CGChangeSet.isEmpty
    rw [Bool.and_eq_true, (C58_changeset_is_empty cs.chain).1]
    have : cs.graph.isEmpty = true ↔ cs.graph = Additions.empty := by
      unfold Additions.isEmpty
      rw [Bool.and_eq_true, OMap.isEmpty_iff, OMap.isEmpty_iff]
      obtain ⟨_, x, y⟩ := cs
      simp [Additions.empty]
    rw [this]
    obtain ⟨a, b⟩ := cs
    simp [CGChangeSet.empty]
  · unfold CGChangeSet.containsEviction
    rw [List.any_eq_true]
    constructor
    · rintro ⟨⟨k, o⟩, hm, hn⟩
      rw [Option.isNone_iff_eq_none] at hn
      exact ⟨k, by have := OMap.mem_entries.mp hm; rw [this]; exact congrArg some hn⟩
    · rintro ⟨t, ht⟩
      exact ⟨(t, none), OMap.mem_entries.mpr ht, rfl⟩

/-- **C58** `is_empty` of a chain graph -/
theorem C58_chain_graph_is_empty [LawfulTx T] (cg : ChainGraph P T) (hg : TxGraph.Reachable cg.graph) :
    cg.isEmpty = true ↔ (∀ h, cg.chain.checkpoints.get h = none) ∧ (∀ t, cg.chain.txPosition t = none) ∧
      (∀ t, cg.graph.getTx t = none) ∧ ∀ o, cg.graph.getTxout o = none := by
  unfold ChainGraph.isEmpty
  rw [Bool.and_eq_true, C58_chain_is_empty, C58_graph_is_empty _ hg, and_assoc]

/-- **C58** `insert_txout` of a chain graph changes the graph as `TxGraph::insert_txout` does, and not the chain -/
theorem C58_insert_txout (cg : ChainGraph P T) (h : ChainGraph.Reachable cg) (op : OutPoint) (x : TxOut) :
    let r := cg.insertTxout op x
    r.1.chain = cg.chain ∧ r.1.graph = (cg.graph.insertTxout op x).1 ∧
    r.2 = ⟨ChangeSet.empty, (cg.graph.insertTxout op x).2⟩ :=
  ⟨applyChangeset_empty (reachable_limited h), rfl, rfl⟩

/-- **C58** `set_checkpoint_limit` of a chain graph keeps the newest checkpoints, all positions and the whole graph -/
theorem C58_set_checkpoint_limit (cg : ChainGraph P T) (n : Nat) :
    let r := cg.setCheckpointLimit (some n)
    (∀ h, r.chain.checkpointAt h = if cpsAbove cg.chain h < n then cg.chain.checkpointAt h else none) ∧
    (∀ t, r.chain.txPosition t = cg.chain.txPosition t) ∧ r.chain.txids = cg.chain.txids ∧ r.graph = cg.graph := by
  intro r
  obtain ⟨h1, h2, h3⟩ := C11_set_limit_keeps_newest cg.chain n
  exact ⟨h1, h2, h3, rfl⟩

/-- **C58** `insert_checkpoint` of a chain graph does to its chain exactly what `SparseChain::insert_checkpoint` does,
reports the same outcome, and leaves the graph alone -/
theorem C58_insert_checkpoint (cg : ChainGraph P T) (b : BlockId) (o : Orders P T) :
    let r := cg.insertCheckpoint b o
    let rc := cg.chain.insertCheckpoint b o.chain
    r.1.chain = rc.1 ∧ r.1.graph = cg.graph ∧
    (∀ cs, r.2 = .ok cs ↔ rc.2 = .ok cs.chain ∧ cs.graph = Additions.empty) ∧
    (∀ e, r.2 = .err e ↔ rc.2 = .err e) ∧ (r.2 = .panic ↔ rc.2 = .panic) := by
  intro r rc
  simp only [r, rc, ChainGraph.insertCheckpoint, SparseChain.insertCheckpoint, ChainGraph.insertCheckpointPreview]
  cases cg.chain.insertCheckpointPreview b o.chain with
  | panic => simp [ChainGraph.applyOk, SparseChain.applyOk]
  | err e => simp [ChainGraph.applyOk, SparseChain.applyOk]
  | ok cs =>
    refine ⟨rfl, rfl, ?_, ?_, ?_⟩
    · intro cs'
      simp only [ChainGraph.applyOk, SparseChain.applyOk, Res.ok.injEq]
      constructor
      · rintro rfl; exact ⟨rfl, rfl⟩
      · rintro ⟨h1, h2⟩
        obtain ⟨c1, c2⟩ := cs'
        simp only at h1 h2
        subst h1 h2; rfl
    · intro e; simp [ChainGraph.applyOk, SparseChain.applyOk]
    · simp [ChainGraph.applyOk, SparseChain.applyOk]

/-- **C58** a call that does not succeed leaves the chain graph as it was -/
theorem C58_failure_changes_nothing (cg : ChainGraph P T) :
    (∀ t pos o, (∀ cs, (cg.insertTx t pos o).2 ≠ .ok cs) → (cg.insertTx t pos o).1 = cg) ∧
    (∀ b o, (∀ cs, (cg.insertCheckpoint b o).2 ≠ .ok cs) → (cg.insertCheckpoint b o).1 = cg) ∧
    (∀ u o, (∀ cs, (cg.applyUpdate u o).2 ≠ .ok cs) → (cg.applyUpdate u o).1 = cg) := by
  have key : ∀ {ε : Type} (r : Res ε (CGChangeSet P T)), (∀ cs, (cg.applyOk r).2 ≠ .ok cs) → (cg.applyOk r).1 = cg := by
    intro ε r h
    cases r with
    | ok cs => exact absurd rfl (h cs)
    | err e => rfl
    | panic => rfl
  exact ⟨fun _ _ _ h => key _ h, fun _ _ h => key _ h, fun _ _ h => key _ h⟩

/-- **C58** `TxGraph::new` holds exactly the given transactions; of several versions of one it holds the first -/
theorem C58_graph_new [LawfulTx T] (l : List T) (k : Txid) :
    (TxGraph.new l).getTx k = l.find? (fun t => decide ((asTx t).txid = k)) := by
  exact (foldl_insertTx_getTx l TxGraph.empty k).trans (by simp [TxGraph.getTx, TxGraph.empty])

example : exGraph.isEmpty = false ∧ exGraph.fullTransactions.length = 5 ∧ exGraph.partialTransactions.length = 1 ∧
    (exGraph.allTxouts (HashOrder.rev _)).length = 7 ∧ exCG.isEmpty = false ∧
    (exCG.insertTxout ⟨dExt, 0⟩ ⟨9, 8⟩).2.isEmpty = false := by decide +kernel

end Verif.Props
