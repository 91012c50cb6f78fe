import Verif.Props.Persist
import Verif.Lemmas.FileStore

/-!
# Properties C42, C43 and C44: the file store
-/

set_option linter.unusedSectionVars false

namespace Verif.Props
open Verif Verif.Spec Verif.KeychainStore
variable {K D P T : Type} [LinearOrder K] [LinearOrder P] [LinearOrder T]
  {cd : Codec (KeychainChangeSet K P T)} {dom : KeychainChangeSet K P T → Prop}

/-! ## C42 -/

/-- **C42** the encoding of changesets is one the store can work with, whatever (lawful) encodings of keychains, positions,
transactions and scripts it is built from -/
theorem C42_bincode {k : Codec K} {p : Codec P} {t : Codec T} {s : Codec Script}
    {dk : K → Prop} {dp : P → Prop} {dt : T → Prop} {ds : Script → Prop}
    (hk : k.Lawful dk) (hp : p.Lawful dp) (ht : t.Lawful dt) (hs : s.Lawful ds) :
    GoodCodec (Codec.changeset k p t s) (Codec.Fits dk dp dt ds) :=
  ⟨Codec.changeset_lawful hk hp ht hs, Codec.changeset_nil k p t s⟩

/-- **C42** in particular for both kinds of positions, the heights (and times) being below the limits of their integer types -/
theorem C42_bincode_positions {k : Codec K} {t : Codec T} {s : Codec Script} {dk : K → Prop} {dt : T → Prop} {ds : Script → Prop}
    (hk : k.Lawful dk) (ht : t.Lawful dt) (hs : s.Lawful ds) :
    GoodCodec (Codec.changeset k Codec.txHeight t s) (Codec.Fits dk (fun h => ∀ n, h = .confirmed n → n < 2 ^ 32) dt ds) ∧
    GoodCodec (Codec.changeset k Codec.confirmationTime t s)
      (Codec.Fits dk (fun h => ∀ n time, h = .confirmed n time → n < 2 ^ 32) dt ds) :=
  ⟨C42_bincode hk Codec.txHeight_lawful ht hs, C42_bincode hk Codec.confirmationTime_lawful ht hs⟩

/-- a store positioned at the end of a file all of which it has read -/
def AtEnd (cd : Codec (KeychainChangeSet K P T)) (f : KeychainStore) (l : List (KeychainChangeSet K P T)) : Prop :=
  ∃ bs, f = ⟨magicBytes ++ bs, (magicBytes ++ bs).length⟩ ∧ Parses cd bs l none []

theorem nonEmpty_append (l l' : List (KeychainChangeSet K P T)) : nonEmpty (l ++ l') = nonEmpty l ++ nonEmpty l' := by
  unfold nonEmpty; rw [List.filter_append]

theorem atEnd_append (hg : GoodCodec cd dom) {f : KeychainStore} {l} (h : AtEnd cd f l) {c} (hd : dom c) :
    (append cd f c .none).2 = .ok () ∧ AtEnd cd (append cd f c .none).1 (l ++ nonEmpty [c]) := by
  obtain ⟨bs, rfl, hp⟩ := h
  cases hc : c.isEmpty with
  | true =>
    rw [KeychainStore.append_empty cd _ c hc]
    exact ⟨rfl, bs, rfl, by simpa [nonEmpty, hc] using hp⟩
  | false =>
    have := append_at cd (magicBytes ++ bs) [] c hc
    rw [List.append_nil] at this
    rw [this]
    refine ⟨rfl, bs ++ cd.enc c, by simp only [List.append_assoc, List.length_append]; congr 1; omega, ?_⟩
    obtain ⟨u, hu, happ⟩ := parses_append hg.lawful hg.nil hp
    rw [List.append_nil] at hu
    subst hu
    have h1 := happ (cd.enc c) [c] none [] (by
      have := parses_enc hg.lawful hd (Parses.done (cd := cd)); rwa [List.append_nil] at this)
    simpa [nonEmpty, hc] using h1

theorem atEnd_contents (hg : GoodCodec cd dom) {f : KeychainStore} {l} (h : AtEnd cd f l) :
    contents cd f.bytes = some (l, none) := by
  obtain ⟨bs, rfl, hp⟩ := h
  exact contents_of_parses hg.lawful hg.nil hp

theorem atEnd_read (hg : GoodCodec cd dom) {f : KeychainStore} {bs : Bytes} {l} (hb : f.bytes = magicBytes ++ bs)
    (h : Parses cd bs l none []) : ∃ f', readAll cd f = some (l, none, f') ∧ AtEnd cd f' l := by
  refine ⟨_, readAll_of_parses hg.lawful hg.nil (by rw [hb, magic_len]; omega) (by rw [hb]; exact h), bs, ?_, h⟩
  rw [hb]; simp

theorem runOps_atEnd (hg : GoodCodec cd dom) (ops : List (KeychainStore.Op K P T)) {f : KeychainStore} {l} (h : AtEnd cd f l)
    (hd : ∀ c ∈ appendedBy ops, dom c) :
    ∃ f', runOps cd f ops = some f' ∧ AtEnd cd f' (l ++ nonEmpty (appendedBy ops)) := by
  induction ops generalizing f l with
  | nil => exact ⟨f, rfl, by simpa [nonEmpty, appendedBy] using h⟩
  | cons op ops ih =>
    cases op with
    | read =>
      obtain ⟨bs, rfl, hp⟩ := h
      obtain ⟨f', h1, h2⟩ := atEnd_read hg (f := ⟨magicBytes ++ bs, (magicBytes ++ bs).length⟩) rfl hp
      obtain ⟨f2, h3, h4⟩ := ih h2 hd
      refine ⟨f2, ?_, h4⟩
      simp only [runOps, h1, Option.bind_eq_bind, Option.bind_some]
      exact h3
    | append c =>
      have hdc : dom c := hd c (by simp [appendedBy])
      obtain ⟨h1, h2⟩ := atEnd_append hg h hdc
      obtain ⟨f2, h3, h4⟩ := ih h2 (fun x hx => hd x (List.mem_cons_of_mem _ hx))
      refine ⟨f2, ?_, ?_⟩
      · simp only [runOps]
        cases ha : KeychainStore.append cd f c .none with
        | mk f1 r =>
          rw [ha] at h1 h3
          cases h1
          exact h3
      · rw [List.append_assoc, ← nonEmpty_append] at h4
        exact h4

/-- **C42** any number of sessions of the program, each opening the file (the first creates it), reading it and then appending
and reading in any order: no call fails, and a later open reads back every changeset appended (the empty ones are not
written), in order, without error -/
theorem C42_round_trip (hg : GoodCodec cd dom) (sessions : List (List (KeychainStore.Op K P T))) (hne : sessions ≠ [])
    (hd : ∀ s ∈ sessions, ∀ c ∈ appendedBy s, dom c) :
    ∃ bytes, runSessions cd none sessions = some (some bytes) ∧
      contents cd bytes = some (nonEmpty (sessions.flatMap appendedBy), none) := by
  have gen : ∀ (ss : List (List (KeychainStore.Op K P T))) (disk : Option Bytes) (bs : Bytes) (l : List (KeychainChangeSet K P T)),
      (disk = none ∧ bs = [] ∨ disk = some (magicBytes ++ bs)) → Parses cd bs l none [] →
      (∀ s ∈ ss, ∀ c ∈ appendedBy s, dom c) → (disk = none → ss ≠ []) →
      ∃ bs', runSessions cd disk ss = some (some (magicBytes ++ bs')) ∧
        Parses cd bs' (l ++ nonEmpty (ss.flatMap appendedBy)) none [] := by
    intro ss
    induction ss with
    | nil =>
      intro disk bs l hdk hp _ hn
      rcases hdk with ⟨rfl, rfl⟩ | rfl
      · exact absurd rfl (hn rfl)
      · exact ⟨bs, rfl, by simpa [nonEmpty] using hp⟩
    | cons s ss ih =>
      intro disk bs l hdk hp hdom _
      have hopen : (newFromPath disk).2 = .ok ⟨magicBytes ++ bs, magicLen⟩ := by
        rcases hdk with ⟨rfl, rfl⟩ | rfl
        · rfl
        · show (new ⟨magicBytes ++ bs, 0⟩).2 = _
          rw [new_ok]
      obtain ⟨f1, h1, h2⟩ := atEnd_read hg (f := ⟨magicBytes ++ bs, magicLen⟩) rfl hp
      obtain ⟨f2, h3, bs2, rfl, h4⟩ := runOps_atEnd hg s h2 (hdom s (by simp))
      obtain ⟨bs', h5, h6⟩ := ih (some (magicBytes ++ bs2)) bs2 _ (.inr rfl) h4 (fun x hx => hdom x (by simp [hx]))
        (fun h => by cases h)
      refine ⟨bs', ?_, ?_⟩
      · simp only [runSessions, hopen, runOps, h1, Option.bind_eq_bind, Option.bind_some, h3]
        exact h5
      · rw [List.flatMap_cons, nonEmpty_append, ← List.append_assoc]; exact h6
  obtain ⟨bs', h1, h2⟩ := gen sessions none [] [] (.inl ⟨rfl, rfl⟩) .done hd (fun _ => hne)
  exact ⟨_, h1, contents_of_parses hg.lawful hg.nil h2⟩

/-- merging ignores empty changesets -/
theorem merged_nonEmpty (l : List (KeychainChangeSet K P T)) : merged (nonEmpty l) = merged l := by
  induction l using List.reverseRecOn with
  | nil => rfl
  | append_singleton l c ih =>
    rw [nonEmpty_append, merged_append, merged_snoc, ih]
    cases hc : c.isEmpty with
    | true =>
      rw [KeychainChangeSet.isEmpty_iff] at hc
      subst hc
      rfl
    | false =>
      have : nonEmpty [c] = [c] := by simp [nonEmpty, hc]
      rw [this]
      show _ = _
      congr 1
      exact KeychainChangeSet.empty_append c

/-- **C42** `aggregate_changeset` returns the merge of the entries that can be read, and the error that ended the reading -/
theorem C42_aggregate (hg : GoodCodec cd dom) (bytes : Bytes) (l : List (KeychainChangeSet K P T)) (e : Option IterError)
    (h : contents cd bytes = some (l, e)) (s : KeychainStore) (hs : (newFromPath (some bytes)).2 = .ok s) :
    ∃ f, aggregateChangeset cd s = some (merged l, e, f) ∧ f.bytes = bytes := by
  obtain ⟨bs, t, rfl, hp⟩ := contents_some hg.lawful hg.nil h
  have : (newFromPath (some (magicBytes ++ bs))).2 = .ok ⟨magicBytes ++ bs, magicLen⟩ := by
    show (new ⟨magicBytes ++ bs, 0⟩).2 = _
    rw [new_ok]
  rw [this] at hs
  cases hs
  refine ⟨⟨magicBytes ++ bs, (magicBytes ++ bs).length - t.length⟩, ?_, rfl⟩
  unfold aggregateChangeset
  rw [readAll_of_parses hg.lawful hg.nil (f := ⟨magicBytes ++ bs, magicLen⟩)
    (by show magicLen ≤ (magicBytes ++ bs).length; rw [magic_len]; omega) hp]
  rfl

/-- **C42** … which after sessions without failures is the merge of everything that was appended -/
theorem C42_aggregate_all (hg : GoodCodec cd dom) (sessions : List (List (KeychainStore.Op K P T))) (hne : sessions ≠ [])
    (hd : ∀ s ∈ sessions, ∀ c ∈ appendedBy s, dom c) :
    ∃ bytes s f, runSessions cd none sessions = some (some bytes) ∧ (newFromPath (some bytes)).2 = .ok s ∧
      aggregateChangeset cd s = some (merged (sessions.flatMap appendedBy), none, f) := by
  obtain ⟨bytes, h1, h2⟩ := C42_round_trip hg sessions hne hd
  obtain ⟨bs, t, rfl, hp⟩ := contents_some hg.lawful hg.nil h2
  have h3 : (newFromPath (some (magicBytes ++ bs))).2 = .ok ⟨magicBytes ++ bs, magicLen⟩ := by
    show (new ⟨magicBytes ++ bs, 0⟩).2 = _
    rw [new_ok]
  obtain ⟨f, h4, -⟩ := C42_aggregate hg _ _ _ h2 _ h3
  rw [merged_nonEmpty] at h4
  exact ⟨_, _, f, h1, h3, h4⟩

/-- **C42** reading ends, whatever the content of the file; it does not change the content, and it leaves the position at the
end of the file, or at the start of the entry that could not be read -/
theorem C42_read_terminates (hg : GoodCodec cd dom) (s : KeychainStore) (hs : s.bytes.take magicLen = magicBytes) :
    ∃ l e f, readAll cd s = some (l, e, f) ∧ f.bytes = s.bytes ∧ magicLen ≤ f.pos ∧ f.pos ≤ f.bytes.length ∧
      (e = none ↔ f.pos = f.bytes.length) := by
  obtain ⟨l, e, t, hp⟩ := parses_total hg.lawful hg.nil (s.bytes.drop magicLen)
  have hl := take_len hs
  obtain ⟨u, hu, -⟩ := parses_append hg.lawful hg.nil hp
  have hlen := congrArg List.length hu
  rw [List.length_drop, List.length_append] at hlen
  refine ⟨l, e, _, readAll_of_parses hg.lawful hg.nil hl hp, rfl, ?_, ?_, ?_⟩
  · show magicLen ≤ s.bytes.length - t.length; omega
  · show s.bytes.length - t.length ≤ s.bytes.length; omega
  · rw [(parses_rest hg.lawful hg.nil hp).1]
    show _ ↔ s.bytes.length - t.length = s.bytes.length
    constructor
    · rintro rfl; rfl
    · intro h
      have : t.length = 0 := by
        have : 12 ≤ s.bytes.length := hl
        omega
      exact List.length_eq_zero_iff.1 this

/-- **C42** the documentation of `iter_changesets` and `EntryIter` says that after an error the iterator yields `None`; it yields
the same error again, for ever -/
theorem C42_doc_error_repeats (f f' : File) (e : IterError) (h : next cd f = (f', some (.error e))) :
    next cd f' = (f', some (.error e)) := by
  have hf : f' = f := by
    unfold next at h
    cases hd : cd.dec (f.bytes.drop f.pos) with
    | ok c r => rw [hd] at h; cases h
    | bad => rw [hd] at h; cases h; rfl
    | eof =>
      rw [hd] at h
      simp only at h
      by_cases hp : f.pos = f.bytes.length
      · rw [if_pos hp] at h; cases h
      · rw [if_neg hp] at h; cases h; rfl
  rw [hf] at h ⊢
  exact h

section wallet
variable [DescriptorOps D] [DecidableEq D] [ChainPosition P] [LawfulChainPosition P] [AsTransaction T] [LawfulTx T]

theorem applyChangeset_empty (t : Tracker K D P T) (hl : SparseChain.Limited t.chainGraph.chain) :
    t.applyChangeset .empty = some t := by
  have h1 : t.txoutIndex.applyAdditions (KeychainChangeSet.empty : KeychainChangeSet K P T).derivationIndices =
      some t.txoutIndex := by
    rw [KeychainIndex.applyAdditions_eq]; rfl
  have h2 : t.txoutIndex.scan (KeychainChangeSet.empty : KeychainChangeSet K P T).chainGraph.graph.txouts =
      some (t.txoutIndex, OMap.empty) := rfl
  have h3 : t.chainGraph.applyChangeset (KeychainChangeSet.empty : KeychainChangeSet K P T).chainGraph = t.chainGraph := by
    show (⟨t.chainGraph.chain.applyChangeset ChangeSet.empty, t.chainGraph.graph.applyAdditions Additions.empty⟩ : ChainGraph P T) = _
    rw [SparseChain.applyChangeset_empty hl]
    rfl
  unfold Tracker.applyChangeset
  rw [h1]
  simp only [Option.bind_eq_bind, Option.bind_some, h2, h3]
  rfl

theorem replay_nonEmpty (log : List (KeychainChangeSet K P T)) (t : Tracker K D P T) (hl : SparseChain.Limited t.chainGraph.chain) :
    t.replay (nonEmpty log) = t.replay log := by
  induction log generalizing t with
  | nil => rfl
  | cons c log ih =>
    have hcons : ∀ l : List (KeychainChangeSet K P T), t.replay (c :: l) = (t.applyChangeset c).bind (fun t' => t'.replay l) := by
      intro l; unfold Tracker.replay; rw [List.foldlM_cons]; rfl
    cases hc : c.isEmpty with
    | true =>
      have e1 : nonEmpty (c :: log) = nonEmpty log := by simp [nonEmpty, hc]
      rw [KeychainChangeSet.isEmpty_iff] at hc
      subst hc
      rw [e1, hcons, applyChangeset_empty t hl]
      exact ih t hl
    | false =>
      have e1 : nonEmpty (c :: log) = c :: nonEmpty log := by simp [nonEmpty, hc]
      rw [e1, hcons, hcons]
      cases ha : t.applyChangeset c with
      | none => rfl
      | some t' =>
        refine ih t' ?_
        unfold Tracker.applyChangeset at ha
        cases h1 : t.txoutIndex.applyAdditions c.derivationIndices with
        | none => rw [h1] at ha; cases ha
        | some i =>
          rw [h1] at ha
          simp only [Option.bind_eq_bind, Option.bind_some] at ha
          cases h2 : i.scan c.chainGraph.graph.txouts with
          | none => rw [h2] at ha; cases ha
          | some r =>
            rw [h2] at ha
            cases ha
            exact SparseChain.applyChangeset_limited _ _

/-- **C42** the wallet survives a restart: a history of calls of a tracker whose changesets are appended to the file one by one,
over any number of sessions.  Loading the file into a tracker set up as the first one was gives the same chain, graph and
index (marks aside), outputs and balance. -/
theorem C42_wallet_survives (hg : GoodCodec cd dom) (t0 : Tracker K D P T)
    (hl : ∀ n, t0.chainGraph.chain.checkpointLimit = some n → t0.chainGraph.chain.checkpoints.size ≤ n)
    (ops : List (Tracker.Op K P T)) (t : Tracker K D P T) (log : List (KeychainChangeSet K P T))
    (h : t0.runFrom ops = some (t, log)) (hd : ∀ c ∈ log, dom c)
    (sessions : List (List (KeychainStore.Op K P T))) (hne : sessions ≠ []) (hs : sessions.flatMap appendedBy = log) :
    ∃ bytes s t' f, runSessions cd none sessions = some (some bytes) ∧ (newFromPath (some bytes)).2 = .ok s ∧
      loadInto cd s t0 = some (t', none, f) ∧ t'.chainGraph = t.chainGraph ∧ SameButMarks t.txoutIndex t'.txoutIndex ∧
      ∀ so trust, t'.fullTxouts so = t.fullTxouts so ∧ t'.balance so trust = t.balance so trust := by
  obtain ⟨bytes, h1, h2⟩ := C42_round_trip hg sessions hne (fun s hs' c hc => hd c (by
    rw [← hs, List.mem_flatMap]; exact ⟨s, hs', hc⟩))
  obtain ⟨bs, b, rfl, hp⟩ := contents_some hg.lawful hg.nil h2
  have h3 : (newFromPath (some (magicBytes ++ bs))).2 = .ok ⟨magicBytes ++ bs, magicLen⟩ := by
    show (new ⟨magicBytes ++ bs, 0⟩).2 = _
    rw [new_ok]
  obtain ⟨t', h4, h5, h6, -⟩ := C55_replay t0 hl ops t log h
  obtain ⟨t2, h4', h7⟩ := C55_replay_balance t0 hl ops t log h
  rw [h4] at h4'; cases h4'
  refine ⟨_, _, t', ⟨magicBytes ++ bs, (magicBytes ++ bs).length - b.length⟩, h1, h3, ?_, h5, h6, fun so trust => ⟨(h7 so trust 0).1, (h7 so trust 0).2.2.1⟩⟩
  unfold loadInto
  rw [readAll_of_parses hg.lawful hg.nil (f := ⟨magicBytes ++ bs, magicLen⟩)
    (by show magicLen ≤ (magicBytes ++ bs).length; rw [magic_len]; omega) hp]
  simp only [Option.bind_eq_bind, Option.bind_some]
  rw [hs, replay_nonEmpty log t0 hl, h4]
  rfl
end wallet

/-! ## C43 -/

theorem openAndRead_eq (hg : GoodCodec cd dom) {bytes : Bytes} {l e} (h : contents cd bytes = some (l, e)) :
    ∃ u t, bytes = magicBytes ++ (u ++ t) ∧ openAndRead cd bytes = some ⟨bytes, (magicBytes ++ u).length⟩ ∧
      Parses cd (u ++ t) l e t ∧ (e = none ↔ t = []) ∧
      ∀ r l' e' t', Parses cd r l' e' t' → Parses cd (u ++ r) (l ++ l') e' t' := by
  obtain ⟨bs, t, rfl, hp⟩ := contents_some hg.lawful hg.nil h
  obtain ⟨u, rfl, hu⟩ := parses_append hg.lawful hg.nil hp
  refine ⟨u, t, rfl, ?_, hp, (parses_rest hg.lawful hg.nil hp).1, hu⟩
  unfold openAndRead
  have h3 : (newFromPath (some (magicBytes ++ (u ++ t)))).2 = .ok ⟨magicBytes ++ (u ++ t), magicLen⟩ := by
    show (new ⟨magicBytes ++ (u ++ t), 0⟩).2 = _
    rw [new_ok]
  rw [h3]
  simp only
  rw [readAll_of_parses hg.lawful hg.nil (f := ⟨magicBytes ++ (u ++ t), magicLen⟩)
    (by show magicLen ≤ (magicBytes ++ (u ++ t)).length; rw [magic_len]; omega) hp]
  simp only [Option.map_some, List.length_append]
  congr 2
  omega

/-- **C43** a file that reads back as `l` without error; a process opens it, reads it and dies while appending `c`, after any
number `k` of bytes.  A later process finds `l` and an unexpected end of the file, or just `l` if nothing was written; if all
bytes were written it finds `l` and `c`. -/
theorem C43_crash (hg : GoodCodec cd dom) (bytes : Bytes) (l : List (KeychainChangeSet K P T))
    (h : contents cd bytes = some (l, none)) (c : KeychainChangeSet K P T) (hd : dom c) (k : Nat) :
    ∃ s, openAndRead cd bytes = some s ∧
      contents cd (crashInAppend cd s c k) = some
        (if k < (cd.enc c).length then (l, if k = 0 then none else some .eof) else (l ++ [c], none)) := by
  obtain ⟨u, t, rfl, h1, -, h2, h3⟩ := openAndRead_eq hg h
  have := h2.1 rfl
  subst this
  rw [List.append_nil] at h1 ⊢
  refine ⟨_, h1, ?_⟩
  unfold crashInAppend
  have hw := write_at (magicBytes ++ u) [] ((cd.enc c).take k)
  rw [List.append_nil, List.drop_nil, List.append_nil] at hw
  rw [hw]
  simp only [List.append_assoc]
  by_cases hk : k < (cd.enc c).length
  · rw [if_pos hk]
    by_cases h0 : k = 0
    · subst h0
      have := h3 [] [] none [] .done
      rw [List.append_nil] at this
      exact contents_of_parses hg.lawful hg.nil (by simpa using this)
    · rw [if_neg h0]
      have := h3 _ _ _ _ (parses_torn hg.lawful hd (Nat.pos_of_ne_zero h0) hk)
      rw [List.append_nil] at this
      exact contents_of_parses hg.lawful hg.nil this
  · rw [if_neg hk, List.take_of_length_le (by omega)]
    have := h3 (cd.enc c) [c] none [] (by
      have := parses_enc hg.lawful hd (Parses.done (cd := cd)); rwa [List.append_nil] at this)
    exact contents_of_parses hg.lawful hg.nil this

/-- **C43** recovery, whatever the file holds after its magic bytes (a torn entry, garbage, …): a process that opens it reads some
entries `l` and perhaps an error; the next append then succeeds, the unreadable tail is gone and the file reads back as `l`
and the new entry -/
theorem C43_recover (hg : GoodCodec cd dom) (bytes : Bytes) (l : List (KeychainChangeSet K P T)) (e : Option IterError)
    (h : contents cd bytes = some (l, e)) (c : KeychainChangeSet K P T) (hd : dom c) (hc : c.isEmpty = false) :
    ∃ s s', openAndRead cd bytes = some s ∧ append cd s c .none = (s', .ok ()) ∧
      contents cd s'.bytes = some (l ++ [c], none) ∧ s'.pos = s'.bytes.length := by
  obtain ⟨u, t, rfl, h1, -, h2, h3⟩ := openAndRead_eq hg h
  refine ⟨_, ⟨magicBytes ++ u ++ cd.enc c, (magicBytes ++ u).length + (cd.enc c).length⟩, h1, ?_, ?_, ?_⟩
  · rw [← List.append_assoc]; exact append_at cd _ t c hc
  · have := h3 (cd.enc c) [c] none [] (by
      have := parses_enc hg.lawful hd (Parses.done (cd := cd)); rwa [List.append_nil] at this)
    simp only [List.append_assoc]
    exact contents_of_parses hg.lawful hg.nil this
  · simp only [List.length_append]

/-- **C43** … and such a file can always be opened and read -/
theorem C43_always_readable (hg : GoodCodec cd dom) (b : Bytes) : ∃ l e, contents cd (magicBytes ++ b) = some (l, e) := by
  obtain ⟨l, e, t, hp⟩ := parses_total hg.lawful hg.nil b
  exact ⟨l, e, contents_of_parses hg.lawful hg.nil hp⟩

/-- the store is where a read leaves it: at the end of entries `l`, perhaps before a tail that cannot be read -/
def AfterRead (cd : Codec (KeychainChangeSet K P T)) (f : KeychainStore) (l : List (KeychainChangeSet K P T)) : Prop :=
  ∃ u t, f = ⟨magicBytes ++ u ++ t, (magicBytes ++ u).length⟩ ∧
    ∀ r l' e' t', Parses cd r l' e' t' → Parses cd (u ++ r) (l ++ l') e' t'

theorem afterRead_append (hg : GoodCodec cd dom) {f : KeychainStore} {l} (h : AfterRead cd f l) {c} (hd : dom c) :
    AfterRead cd (append cd f c .none).1 (l ++ nonEmpty [c]) := by
  obtain ⟨u, t, rfl, hu⟩ := h
  cases hc : c.isEmpty with
  | true =>
    rw [KeychainStore.append_empty cd _ c hc]
    exact ⟨u, t, rfl, by simpa [nonEmpty, hc] using hu⟩
  | false =>
    rw [append_at cd _ t c hc]
    refine ⟨u ++ cd.enc c, [], by simp only [List.append_assoc, List.append_nil, List.length_append]; congr 1; omega, ?_⟩
    intro r l' e' t' hp
    have := hu _ _ _ _ (parses_enc hg.lawful hd hp)
    simp only [nonEmpty, hc, List.filter_cons, List.filter_nil, Bool.not_false, if_true, List.append_assoc,
      List.cons_append, List.nil_append]
    exact this

theorem afterRead_appends (hg : GoodCodec cd dom) (cs : List (KeychainChangeSet K P T)) {f : KeychainStore} {l} (h : AfterRead cd f l)
    (hd : ∀ c ∈ cs, dom c) : AfterRead cd (cs.foldl (fun f c => (append cd f c .none).1) f) (l ++ nonEmpty cs) := by
  induction cs generalizing f l with
  | nil => simpa [nonEmpty] using h
  | cons c cs ih =>
    have := ih (afterRead_append hg h (hd c (by simp))) (fun x hx => hd x (by simp [hx]))
    rw [List.append_assoc, ← nonEmpty_append] at this
    exact this

/-- **C43** what a crash can never do: any number of processes, each opening the file whatever the previous ones left, reading it,
appending and dying at any byte of a further append.  Every changeset whose append returned is read back, in order. -/
theorem C43_completed_survive (hg : GoodCodec cd dom) (sessions : List (CrashSession K P T)) (bytes : Bytes)
    (l : List (KeychainChangeSet K P T)) (e : Option IterError) (h : contents cd bytes = some (l, e))
    (hd : ∀ s ∈ sessions, ∀ c ∈ s.appends, dom c) :
    ∃ bytes' l' e', sessions.foldlM (fun b s => runCrash cd b s) bytes = some bytes' ∧ contents cd bytes' = some (l', e') ∧
      (l ++ nonEmpty (sessions.flatMap CrashSession.appends)).Sublist l' := by
  induction sessions generalizing bytes l e with
  | nil => exact ⟨bytes, l, e, rfl, h, by simp [nonEmpty]⟩
  | cons s ss ih =>
    obtain ⟨u, t, rfl, h1, -, h2, h3⟩ := openAndRead_eq hg h
    have har : AfterRead cd ⟨magicBytes ++ (u ++ t), (magicBytes ++ u).length⟩ l := ⟨u, t, by rw [List.append_assoc], h3⟩
    have har2 := afterRead_appends hg s.appends har (hd s (by simp))
    obtain ⟨b1, l1, e1, hr, hc1, hsub⟩ : ∃ b1 l1 e1, runCrash cd (magicBytes ++ (u ++ t)) s = some b1 ∧
        contents cd b1 = some (l1, e1) ∧ (l ++ nonEmpty s.appends).Sublist l1 := by
      obtain ⟨u2, t2, hf, h4⟩ := har2
      unfold runCrash
      rw [h1]
      simp only [Option.bind_eq_bind, Option.bind_some]
      rw [hf]
      cases s.crash with
      | none =>
        obtain ⟨l', e', t', hp⟩ := parses_total hg.lawful hg.nil t2
        refine ⟨_, _, e', rfl, ?_, List.sublist_append_left _ l'⟩
        have := h4 _ _ _ _ hp
        simp only [List.append_assoc] at this ⊢
        exact contents_of_parses hg.lawful hg.nil this
      | some ck =>
        obtain ⟨c, k⟩ := ck
        obtain ⟨l', e', t', hp⟩ := parses_total hg.lawful hg.nil (((cd.enc c).take k) ++ t2.drop ((cd.enc c).take k).length)
        refine ⟨_, _, e', rfl, ?_, List.sublist_append_left _ l'⟩
        unfold crashInAppend
        rw [write_at]
        have := h4 _ _ _ _ hp
        simp only [List.append_assoc] at this ⊢
        exact contents_of_parses hg.lawful hg.nil this
    obtain ⟨b2, l2, e2, h5, h6, h7⟩ := ih b1 l1 e1 hc1 (fun x hx => hd x (by simp [hx]))
    refine ⟨b2, l2, e2, ?_, h6, ?_⟩
    · rw [List.foldlM_cons, hr]; exact h5
    · rw [List.flatMap_cons, nonEmpty_append, ← List.append_assoc]
      exact (hsub.append (List.Sublist.refl _)).trans h7

/-- **C43** appending right after opening, without reading first: the new entry replaces everything the file held -/
theorem C43_unread_append_loses (hg : GoodCodec cd dom) (bytes : Bytes) (s : KeychainStore)
    (hs : (newFromPath (some bytes)).2 = .ok s) (c : KeychainChangeSet K P T) (hd : dom c) (hc : c.isEmpty = false) :
    contents cd (append cd s c .none).1.bytes = some ([c], none) := by
  have hm : bytes.take magicLen = magicBytes ∧ s = ⟨bytes, magicLen⟩ := by
    unfold newFromPath new at hs
    simp only at hs
    by_cases h1 : bytes.length < magicLen
    · rw [if_pos h1] at hs; cases hs
    · rw [if_neg h1] at hs
      by_cases h2 : bytes.take magicLen = magicBytes
      · rw [if_neg (by simp [h2])] at hs; cases hs; exact ⟨h2, rfl⟩
      · rw [if_pos h2] at hs; cases hs
  obtain ⟨hm, rfl⟩ := hm
  rw [magic_split hm]
  have := append_at cd magicBytes (bytes.drop magicLen) c hc
  have e : magicBytes.length = magicLen := rfl
  rw [e] at this
  rw [this]
  have hp := parses_enc hg.lawful hd (Parses.done (cd := cd))
  rw [List.append_nil] at hp
  exact contents_of_parses hg.lawful hg.nil hp

/-- **C41** with the file store as backend and no write failing: what the file held before and the staged changes, merged, are what
it holds after together with what is still staged -/
theorem C41_file_store (hg : GoodCodec cd dom) (bytes : Bytes) (l : List (KeychainChangeSet K P T))
    (e : Option IterError) (h : contents cd bytes = some (l, e)) (s : KeychainStore) (hs : openAndRead cd bytes = some s)
    (ops : List (Persist.Op K P T))
    (hd : ∀ c ∈ confirmedWrites ((Persist.new (s, [])).run (backend cd) ops).2, dom c) (hc : e = none ∨
      nonEmpty (confirmedWrites ((Persist.new (s, [])).run (backend cd) ops).2) ≠ []) :
    contents cd ((Persist.new (s, [])).run (backend cd) ops).1.backend.1.bytes =
      some (l ++ nonEmpty (confirmedWrites ((Persist.new (s, [])).run (backend cd) ops).2), none) := by
  have gen : ∀ (ops : List (Persist.Op K P T)) (p : Persist K P T (KeychainStore × List WriteFault)), p.backend.2 = [] →
      (p.run (backend cd) ops).1.backend.1 =
        (confirmedWrites (p.run (backend cd) ops).2).foldl (fun f c => (append cd f c .none).1) p.backend.1 := by
    intro ops
    induction ops with
    | nil => intro p _; rfl
    | cons op ops ih =>
      intro p hp
      cases op with
      | stage c => exact ih (p.stageChangeset c) hp
      | commit =>
        have hok : (append cd p.backend.1 p.stage .none).2 = .ok () := by
          unfold KeychainStore.append; split <;> rfl
        have hcm : p.commit (backend cd) = (⟨((append cd p.backend.1 p.stage .none).1, []), .empty⟩, .ok ()) := by
          unfold Persist.commit backend
          simp only [hp, hok]
        simp only [Persist.run, Persist.step, hcm]
        have := ih ⟨((append cd p.backend.1 p.stage .none).1, []), .empty⟩ rfl
        rw [this]
        rfl
  obtain ⟨u, t, rfl, h1, -, h2, h3⟩ := openAndRead_eq hg h
  rw [h1] at hs
  cases hs
  rw [gen ops _ rfl]
  have har : AfterRead cd ⟨magicBytes ++ (u ++ t), (magicBytes ++ u).length⟩ l := ⟨u, t, by rw [List.append_assoc], h3⟩
  generalize confirmedWrites ((Persist.new (K := K) (P := P) (T := T) ((⟨magicBytes ++ (u ++ t), (magicBytes ++ u).length⟩ : File), ([] : List WriteFault))).run (backend cd) ops).2 = w at *
  show contents cd ((w.foldl (fun f c => (append cd f c .none).1) ⟨magicBytes ++ (u ++ t), (magicBytes ++ u).length⟩).bytes) = _
  clear gen h h1
  induction w using List.reverseRecOn with
  | nil =>
    rcases hc with hc | hc
    · subst hc
      have := h2.1 rfl
      subst this
      have := h3 [] [] none [] .done
      simp only [List.foldl_nil, nonEmpty, List.filter_nil]
      exact contents_of_parses hg.lawful hg.nil this
    · exact absurd rfl hc
  | append_singleton w c ih =>
    rw [List.foldl_append]
    simp only [List.foldl_cons, List.foldl_nil]
    cases hcc : c.isEmpty with
    | true =>
      rw [KeychainStore.append_empty cd _ c hcc]
      have e : nonEmpty (w ++ [c]) = nonEmpty w := by simp [nonEmpty, hcc]
      rw [e] at hc ⊢
      exact ih (fun x hx => hd x (by simp [hx])) hc
    | false =>
      obtain ⟨u2, t2, hf, h4⟩ := afterRead_appends hg w har (fun x hx => hd x (by simp [hx]))
      rw [hf, append_at cd _ t2 c hcc]
      have := h4 (cd.enc c) [c] none [] (by
        have := parses_enc hg.lawful (hd c (by simp)) (Parses.done (cd := cd)); rwa [List.append_nil] at this)
      have e : nonEmpty (w ++ [c]) = nonEmpty w ++ [c] := by simp [nonEmpty, hcc]
      rw [e, ← List.append_assoc]
      simp only [List.append_assoc] at this ⊢
      exact contents_of_parses hg.lawful hg.nil this

/-- **C41** the store as a backend never hides a failure: a write is confirmed only if there was nothing to write, or every byte
of the entry is in the file, right after what the store has read and written, nothing follows it, and — for a changeset that
reveals scripts — the data has been synced to disk.  A confirmed write consumes its fault from the queue. -/
theorem C41_confirmed_is_written (f : KeychainStore) (faults : List WriteFault) (c : KeychainChangeSet K P T)
    (hp : f.pos ≤ f.bytes.length) (h : ((backend cd).append (f, faults) c).2 = .ok ()) :
    (c.isEmpty = true ∧ ((backend cd).append (f, faults) c).1.1 = f) ∨
    (c.isEmpty = false ∧
      ((backend cd).append (f, faults) c).1.1.bytes = f.bytes.take f.pos ++ cd.enc c ∧
      ((backend cd).append (f, faults) c).1.1.pos = f.pos + (cd.enc c).length ∧
      (faults.headD .none = .none ∨ faults.headD .none = .sync ∧ c.derivationIndices.isEmpty = true)) := by
  have hb : (backend cd).append (f, faults) c =
      (((append cd f c (faults.headD .none)).1, faults.tail), (append cd f c (faults.headD .none)).2) := by
    cases faults <;> rfl
  rw [hb] at h ⊢
  simp only at h ⊢
  have hset : (f.write (cd.enc c)).setLen (f.pos + (cd.enc c).length) =
      ⟨f.bytes.take f.pos ++ cd.enc c, f.pos + (cd.enc c).length⟩ := by
    have h1 : (f.bytes.take f.pos).length = f.pos := by rw [List.length_take]; omega
    have h0 : f.pos - f.bytes.length = 0 := by omega
    unfold File.write File.setLen
    simp only [h0, List.replicate_zero, List.append_nil, List.length_append, List.length_drop, h1]
    have h2 : f.pos + (cd.enc c).length - (f.pos + (cd.enc c).length + (f.bytes.length - (f.pos + (cd.enc c).length))) = 0 := by
      omega
    rw [h2, List.replicate_zero, List.append_nil]
    congr 1
    rw [List.take_left' (by rw [List.length_append, h1])]
  cases hc : c.isEmpty with
  | true =>
    refine .inl ⟨rfl, ?_⟩
    unfold KeychainStore.append; rw [if_pos hc]
  | false =>
    refine .inr ⟨rfl, ?_⟩
    unfold KeychainStore.append at h ⊢
    rw [hc] at h
    rw [hc]
    simp only [Bool.false_eq_true, if_false] at h ⊢
    cases hx : faults.headD .none with
    | write k => rw [hx] at h; cases h
    | truncate => rw [hx] at h; cases h
    | none => rw [hset]; exact ⟨rfl, rfl, .inl rfl⟩
    | sync =>
      rw [hx] at h
      rw [hset]
      refine ⟨rfl, rfl, .inr ⟨rfl, ?_⟩⟩
      by_cases hd : c.derivationIndices.isEmpty = true
      · exact hd
      · simp only [Bool.not_eq_true] at hd
        simp only [hd, Bool.not_false, if_true] at h
        cases h

/-- **C41** and without faults every write is confirmed -/
theorem C41_no_fault_no_error (f : KeychainStore) (faults : List WriteFault) (c : KeychainChangeSet K P T)
    (h : faults.headD .none = .none) : ((backend cd).append (f, faults) c).2 = .ok () := by
  cases faults with
  | nil => show (append cd f c .none).2 = _; unfold KeychainStore.append; split <;> rfl
  | cons x l =>
    have : x = .none := h
    subst this
    show (append cd f c .none).2 = _; unfold KeychainStore.append; split <;> rfl

/-! ## C44 -/

/-- **C44** the magic bytes are the twelve characters `bdkfs0000000` -/
theorem C44_magic : magicBytes = "bdkfs0000000".toUTF8.toList ∧ magicLen = magicBytes.length := by decide +kernel


/-- **C44** opening succeeds exactly for files that start with the magic bytes -/
theorem C44_open_iff (bytes : Bytes) :
    (∃ s, (newFromPath (some bytes)).2 = .ok s) ↔ ∃ rest, bytes = magicBytes ++ rest := by
  constructor
  · rintro ⟨s, hs⟩
    unfold newFromPath new at hs
    simp only at hs
    by_cases h1 : bytes.length < magicLen
    · rw [if_pos h1] at hs; cases hs
    · rw [if_neg h1] at hs
      by_cases h2 : bytes.take magicLen = magicBytes
      · exact ⟨_, magic_split h2⟩
      · rw [if_pos h2] at hs; cases hs
  · rintro ⟨rest, rfl⟩
    exact ⟨_, by show (new ⟨magicBytes ++ rest, 0⟩).2 = _; rw [new_ok]⟩

/-- **C44** otherwise an error is returned: an I/O error for a file that is too short, else the bytes found.  Whatever the result,
an existing file is not changed by opening it. -/
theorem C44_open_error (f : File) :
    (new f).1.bytes = f.bytes ∧
    ((new f).2 = .error .io ↔ f.bytes.length < 12) ∧
    (∀ b, (new f).2 = .error (.invalidMagicBytes b) ↔ 12 ≤ f.bytes.length ∧ b = f.bytes.take 12 ∧ b ≠ magicBytes) := by
  unfold new magicLen
  by_cases h1 : f.bytes.length < 12
  · rw [if_pos h1]
    refine ⟨rfl, by simp [h1], fun b => ?_⟩
    constructor
    · intro h; cases h
    · rintro ⟨h, -⟩; omega
  · rw [if_neg h1]
    by_cases h2 : f.bytes.take 12 = magicBytes
    · rw [if_neg (by simp [h2])]
      refine ⟨rfl, ?_, fun b => ?_⟩
      · constructor
        · intro h; cases h
        · intro h; exact absurd h h1
      · constructor
        · intro h; cases h
        · rintro ⟨-, rfl, h⟩; exact absurd h2 h
    · rw [if_pos h2]
      refine ⟨rfl, ?_, fun b => ?_⟩
      · constructor
        · intro h; cases h
        · intro h; exact absurd h h1
      · constructor
        · intro h; cases h; exact ⟨by omega, rfl, h2⟩
        · rintro ⟨-, rfl, -⟩; rfl

/-- **C44** a path without a file gets one holding the magic bytes and no entries -/
theorem C44_create : (newFromPath none).1.bytes = magicBytes ∧ (newFromPath none).2 = .ok ⟨magicBytes, magicLen⟩ := ⟨rfl, rfl⟩

theorem magic_step {f : File} (hm : f.bytes.take magicLen = magicBytes) (hp : magicLen ≤ f.pos) (e : Bytes) (n : Nat) (hn : magicLen ≤ n) :
    (f.write e).bytes.take magicLen = magicBytes ∧ ((f.write e).setLen n).bytes.take magicLen = magicBytes := by
  have hl := take_len hm
  have h1 : (f.write e).bytes.take magicLen = magicBytes := by
    unfold File.write
    simp only [List.append_assoc]
    rw [List.take_append_of_le_length (by rw [List.length_take]; omega), List.take_take, Nat.min_eq_left hp, hm]
  refine ⟨h1, ?_⟩
  have h2 := take_len h1
  unfold File.setLen
  simp only
  rw [List.take_append_of_le_length (by rw [List.length_take]; omega), List.take_take, Nat.min_eq_left hn, h1]

theorem next_pos (f : File) : f.pos ≤ (next cd f).1.pos ∧ (next cd f).1.bytes = f.bytes := by
  unfold next
  cases hd : cd.dec (f.bytes.drop f.pos) with
  | ok c r => exact ⟨Nat.le_add_right _ _, rfl⟩
  | bad => exact ⟨le_refl _, rfl⟩
  | eof =>
    simp only
    by_cases hp : f.pos = f.bytes.length
    · rw [if_pos hp]; exact ⟨hp ▸ le_refl _, rfl⟩
    · rw [if_neg hp]; exact ⟨le_refl _, rfl⟩

/-- **C44** whatever is done with an opened store, writes failing or not: the file still starts with the magic bytes, so it can be
opened again -/
theorem C44_magic_kept (bytes : Bytes) (s : KeychainStore) (hs : (newFromPath (some bytes)).2 = .ok s)
    (ops : List (FaultyOp K P T)) (s' : KeychainStore) (h : runFaulty cd s ops = some s') :
    ∃ rest, s'.bytes = magicBytes ++ rest := by
  have hread : ∀ (n : Nat) (f : File) r, readLoop cd n f = some r → f.pos ≤ r.2.2.pos ∧ r.2.2.bytes = f.bytes := by
    intro n
    induction n with
    | zero => intro f r h; cases h
    | succ n ih =>
      intro f r h
      have hnp := next_pos (cd := cd) f
      unfold readLoop at h
      cases hx : next cd f with
      | mk f' o =>
        rw [hx] at h hnp
        cases o with
        | none => cases h; exact hnp
        | some o =>
          cases o with
          | error e => cases h; exact hnp
          | ok c =>
            simp only [Option.map_eq_some_iff] at h
            obtain ⟨r', h, rfl⟩ := h
            have := ih f' r' h
            exact ⟨le_trans hnp.1 this.1, this.2.trans hnp.2⟩
  have gen : ∀ (ops : List (FaultyOp K P T)) (s : KeychainStore), s.bytes.take magicLen = magicBytes → magicLen ≤ s.pos →
      runFaulty cd s ops = some s' → s'.bytes.take magicLen = magicBytes := by
    intro ops
    induction ops with
    | nil => intro s hm _ h; cases h; exact hm
    | cons op ops ih =>
      intro s hm hp h
      cases op with
      | next =>
        have := next_pos (cd := cd) s
        exact ih _ (by rw [this.2]; exact hm) (le_trans hp this.1) h
      | read =>
        simp only [runFaulty] at h
        cases hr : readAll cd s with
        | none => rw [hr] at h; cases h
        | some r =>
          rw [hr] at h
          have := hread _ _ _ hr
          exact ih _ (by rw [this.2]; exact hm) this.1 h
      | append c x =>
        simp only [runFaulty] at h
        have key : (append cd s c x).1.bytes.take magicLen = magicBytes ∧ magicLen ≤ (append cd s c x).1.pos := by
          unfold KeychainStore.append
          by_cases hc : c.isEmpty = true
          · rw [if_pos hc]; exact ⟨hm, hp⟩
          · rw [if_neg hc]
            have hpos : ∀ e : Bytes, magicLen ≤ (s.write e).pos := fun e => by
              show magicLen ≤ s.pos + e.length; omega
            cases x with
            | none => exact ⟨(magic_step hm hp _ _ (by omega)).2, hpos _⟩
            | write k => exact ⟨(magic_step hm hp _ magicLen (le_refl _)).1, hpos _⟩
            | truncate => exact ⟨(magic_step hm hp _ magicLen (le_refl _)).1, hpos _⟩
            | sync => exact ⟨(magic_step hm hp _ _ (by omega)).2, hpos _⟩
        exact ih _ key.1 key.2 h
  obtain ⟨rest, rfl⟩ := (C44_open_iff bytes).1 ⟨s, hs⟩
  have : (newFromPath (some (magicBytes ++ rest))).2 = .ok ⟨magicBytes ++ rest, magicLen⟩ := by
    show (new ⟨magicBytes ++ rest, 0⟩).2 = _
    rw [new_ok]
  rw [this] at hs
  cases hs
  exact ⟨_, magic_split (gen ops _ rfl (le_refl _) h)⟩

/-- **C44** a crash while the file is being created, before all magic bytes are written, leaves a file that can never be opened -/
theorem C44_crash_in_create (k : Nat) (hk : k < 12) : (newFromPath (some (crashInCreate k))).2 = .error .io := by
  revert k; decide

/-! ## A concrete encoding, examples and counterexamples -/

/-- changesets of the examples: keychains are numbers -/
abbrev DemoCS := KeychainChangeSet Nat TxHeight DemoTx

/-- encoding of a demo transaction: its number and witness version -/
def demoTxCodec : Codec DemoTx :=
  Codec.conv (fun t => (t.num.val, t.wit.val))
    (fun x => if h : x.1 < 8 ∧ x.2 < 2 then some ⟨⟨x.1, h.1⟩, ⟨x.2, h.2⟩⟩ else none)
    (Codec.pair (Codec.varint false) (Codec.varint false))

theorem demoTxCodec_lawful : demoTxCodec.Lawful (fun _ => True) :=
  Codec.conv_lawful (Codec.pair_lawful (Codec.varint_lawful false) (Codec.varint_lawful false))
    (fun t _ => ⟨lt_trans t.num.2 (by decide), lt_trans t.wit.2 (by decide)⟩)
    (fun t _ => by rw [dif_pos ⟨t.num.2, t.wit.2⟩])

/-- the encoding of `KeychainChangeSet` for the examples -/
def demoCodec : Codec DemoCS :=
  Codec.changeset (Codec.varint false) Codec.txHeight demoTxCodec (Codec.varint true)

/-- the changesets it covers -/
abbrev DemoFits : DemoCS → Prop :=
  Codec.Fits (fun k => k < Codec.intLimit false) (fun h => ∀ n, h = .confirmed n → n < 2 ^ 32) (fun _ => True)
    (fun s => s < Codec.intLimit true)

theorem demo_good : GoodCodec demoCodec DemoFits :=
  C42_bincode (Codec.varint_lawful false) Codec.txHeight_lawful demoTxCodec_lawful (Codec.varint_lawful true)

/-- a check that a changeset is covered; the keychains are checked by `kb` -/
def fitsB {K T : Type} [LinearOrder K] [LinearOrder T] (kb : K → Bool) (c : KeychainChangeSet K TxHeight T) : Bool :=
  decide (c.derivationIndices.size < 2 ^ 64 ∧ c.chainGraph.chain.checkpoints.size < 2 ^ 64 ∧
    c.chainGraph.chain.txids.size < 2 ^ 64 ∧ OMap.size c.chainGraph.graph.tx < 2 ^ 64 ∧ c.chainGraph.graph.txout.size < 2 ^ 64) &&
  c.derivationIndices.entries.all (fun e => kb e.1 && decide (e.2 < 2 ^ 32)) &&
  c.chainGraph.chain.checkpoints.entries.all (fun e => decide (e.1 < 2 ^ 32) && e.2.all (fun x => decide (x < 2 ^ 256))) &&
  c.chainGraph.chain.txids.entries.all (fun e => e.2.all (fun | .confirmed n => decide (n < 2 ^ 32) | .unconfirmed => true)) &&
  c.chainGraph.graph.txout.entries.all (fun e => decide (e.2.value < 2 ^ 64 ∧ e.2.spk < 2 ^ 64))

theorem fits_gen {K T : Type} [LinearOrder K] [LinearOrder T] (kb : K → Bool) (c : KeychainChangeSet K TxHeight T) (h : fitsB kb c = true) :
    Codec.Fits (fun k => kb k = true) (fun h => ∀ n, h = .confirmed n → n < 2 ^ 32) (fun _ => True)
    (fun s => s < Codec.intLimit true) c := by
  unfold fitsB at h
  simp only [Bool.and_eq_true, decide_eq_true_eq, List.all_eq_true] at h
  obtain ⟨⟨⟨⟨h1, h2⟩, h3⟩, h4⟩, h5⟩ := h
  refine ⟨h1, fun k i hk => ?_, fun k b hk => ?_, fun k p hk x hx n hn => ?_, fun _ _ => trivial, fun o x ho => ?_⟩
  · exact h2 _ (OMap.mem_entries.2 hk)
  · refine ⟨(h3 _ (OMap.mem_entries.2 hk)).1, fun x hx => ?_⟩
    have := (h3 _ (OMap.mem_entries.2 hk)).2
    cases hx
    simpa using this
  · have := h4 _ (OMap.mem_entries.2 hk)
    cases hx
    subst hn
    simpa using this
  · exact h5 _ (OMap.mem_entries.2 ho)

theorem fits_of (c : DemoCS) (h : fitsB (fun k => decide (k < 2 ^ 32)) c = true) : DemoFits c := by
  have := fits_gen _ c h
  simp only [decide_eq_true_eq] at this
  exact this

/-- an encoding of the three keychains of the tracker of `Props/Tracker.lean` -/
def fin3Codec : Codec (Fin 3) :=
  Codec.conv (fun k => k.val) (fun n => if h : n < 3 then some ⟨n, h⟩ else none) (Codec.varint false)
theorem fin3_good : GoodCodec (Codec.changeset fin3Codec Codec.txHeight demoTxCodec (Codec.varint true))
    (Codec.Fits (fun _ => true = true) (fun h => ∀ n, h = .confirmed n → n < 2 ^ 32) (fun _ => True)
      (fun s => s < Codec.intLimit true)) :=
  C42_bincode (Codec.conv_lawful (Codec.varint_lawful false) (fun k _ => lt_trans k.2 (by decide))
    (fun k _ => by rw [dif_pos k.2])) Codec.txHeight_lawful demoTxCodec_lawful (Codec.varint_lawful true)

/-- the history of `exTr` meets the hypotheses of `C42_wallet_survives` -/
example : ∃ log, exFresh.runFrom exTrOps = some (exTr, log) ∧ log.length = 10 ∧
    (∀ n, exFresh.chainGraph.chain.checkpointLimit = some n → exFresh.chainGraph.chain.checkpoints.size ≤ n) ∧
    (∀ c ∈ log, Codec.Fits (fun _ => true = true) (fun h => ∀ n, h = .confirmed n → n < 2 ^ 32) (fun _ => True)
      (fun s => s < Codec.intLimit true) c) ∧
    [log.map (fun c => KeychainStore.Op.append c)].flatMap appendedBy = log := by
  obtain ⟨log, h⟩ := exTr_run
  have h2 : ∀ r ∈ exFresh.runFrom exTrOps, r.2.all (fitsB (fun _ => true)) = true ∧ r.2.length = 10 := by decide +kernel
  have h3 := h2 _ h
  refine ⟨log, h, h3.2, fun n hn => (by cases hn), fun c hc => fits_gen _ c (List.all_eq_true.1 h3.1 c hc), ?_⟩
  simp [appendedBy, List.filterMap_map, Function.comp_def]

/-- reveal index `i` of keychain `k` -/
def csIdx (k i : Nat) : DemoCS := .ofAdditions (OMap.empty.insert k i)
/-- a transaction confirmed in block 7 and an index that needs three bytes -/
def csTx : DemoCS := ⟨OMap.empty.insert 1 300,
  ⟨⟨OMap.empty.insert 7 (some 12345), OMap.empty.insert (dId 1) (some (.confirmed 7))⟩,
   ⟨OSet.ofList [d 1], OMap.empty.insert ⟨dId 0, 0⟩ ⟨50, 1⟩⟩⟩⟩

example : (demoCodec.enc csTx).length = 118 ∧ demoCodec.dec (demoCodec.enc csTx) = .ok csTx [] := by decide +kernel
example : DemoFits csTx := fits_of _ (by decide +kernel)

/-- three sessions, an empty changeset among the appended ones -/
def exSessions : List (List (KeychainStore.Op Nat TxHeight DemoTx)) :=
  [[], [.append (csIdx 0 1), .append .empty, .read, .append csTx], [.append (csIdx 0 2)]]
example : exSessions ≠ [] ∧ ∀ s ∈ exSessions, ∀ c ∈ appendedBy s, DemoFits c := by
  refine ⟨by decide, fun s hs c hc => fits_of _ ?_⟩
  revert c s
  decide +kernel
example : ∃ bytes, runSessions demoCodec none exSessions = some (some bytes) ∧ contents demoCodec bytes =
    some ([csIdx 0 1, csTx, csIdx 0 2], none) := by
  refine ⟨((runSessions demoCodec none exSessions).bind id).getD [], ?_, ?_⟩ <;> decide +kernel

/-- a file with one entry -/
def exFile : Bytes := magicBytes ++ demoCodec.enc (csIdx 0 5)
example : contents demoCodec exFile = some ([csIdx 0 5], none) := by decide +kernel
example : contents demoCodec (exFile ++ (demoCodec.enc csTx).take 20) = some ([csIdx 0 5], some .eof) := by decide +kernel
example : contents demoCodec (exFile ++ [255, 1, 2]) = some ([csIdx 0 5], some .bad) := by decide +kernel
example : ∃ s, (newFromPath (some exFile)).2 = .ok s ∧ next demoCodec ⟨exFile ++ [1, 0], exFile.length⟩ =
    (⟨exFile ++ [1, 0], exFile.length⟩, some (.error .eof)) := ⟨⟨exFile, 12⟩, by decide +kernel, by decide +kernel⟩
example : exFile.take magicLen = magicBytes := by decide +kernel
/-- a failing sync is tolerated for a changeset that reveals nothing and reported for one that reveals scripts -/
example : (match ((backend demoCodec).append (⟨exFile, exFile.length⟩, [.sync]) { csTx with derivationIndices := .empty }).2 with | .ok _ => true | .error _ => false) = true ∧
    (match ((backend demoCodec).append (⟨exFile, exFile.length⟩, [.sync]) (csIdx 0 7)).2 with | .ok _ => true | .error _ => false) = false := by
  decide +kernel

example : ∃ s, openAndRead demoCodec exFile = some s ∧
    (let r := (Persist.new (s, [])).run (backend demoCodec) [.stage (csIdx 0 6), .stage csTx, .commit]
     confirmedWrites r.2 = [(csIdx 0 6).append csTx]) := by
  refine ⟨⟨exFile, exFile.length⟩, ?_, ?_⟩ <;> decide +kernel

/-- **C43** the truncation comes too late for the second crash in a row.  The first process dies while appending `a`; the second
reads the entries before it and dies while appending `b`, after all bytes of `b` are written and before the rest of `a` is
cut off.  What is left of `a` reads as a further changeset that no one ever appended (here it reveals indices of keychains 9
and 11). -/
theorem C43_phantom_entry : ∃ (cd : Codec DemoCS) (dom : DemoCS → Prop) (a b x : DemoCS) (k : Nat) (disk1 disk2 : Bytes),
    GoodCodec cd dom ∧ dom a ∧ dom b ∧ k < (cd.enc a).length ∧
    runCrash cd magicBytes ⟨[], some (a, k)⟩ = some disk1 ∧ contents cd disk1 = some ([], some .eof) ∧
    runCrash cd disk1 ⟨[], some (b, (cd.enc b).length)⟩ = some disk2 ∧
    (∃ l e, contents cd disk2 = some (b :: x :: l, e)) ∧ x ≠ a ∧ x ≠ b ∧ x.isEmpty = false ∧
    x.derivationIndices.get 9 = some 4 := by
  let a : DemoCS := ⟨(((((OMap.empty.insert 0 0).insert 1 0).insert 2 0).insert 3 9).insert 4 11),
    ⟨⟨OMap.empty, OMap.empty.insert 0 none⟩, ⟨OMap.empty, OMap.empty⟩⟩⟩
  let disk1 := (runCrash demoCodec magicBytes ⟨[], some (a, 30)⟩).getD []
  let disk2 := (runCrash demoCodec disk1 ⟨[], some (csIdx 0 9, (demoCodec.enc (csIdx 0 9)).length)⟩).getD []
  refine ⟨demoCodec, DemoFits, a, csIdx 0 9, ((contents demoCodec disk2).map (fun r => (r.1[1]?).getD .empty)).getD .empty,
    30, disk1, disk2, demo_good, fits_of _ ?_, fits_of _ ?_, ?_, ?_, ?_, ?_,
    ⟨((contents demoCodec disk2).map (fun r => r.1.drop 2)).getD [], ((contents demoCodec disk2).map Prod.snd).getD none, ?_⟩,
    ?_, ?_, ?_, ?_⟩ <;> decide +kernel

/-- **C43** a write that fails (say, the disk is full) leaves its bytes in the file and the position after them; a retry that succeeds
writes behind them.  Committed through `Persist`: the second commit reports success, and the changeset cannot be read back. -/
theorem C43_retry_corrupts : ∃ (cd : Codec DemoCS) (dom : DemoCS → Prop) (c : DemoCS) (disk : Bytes) (s : KeychainStore),
    GoodCodec cd dom ∧ dom c ∧ openAndRead cd disk = some s ∧ contents cd disk = some ([], none) ∧
    (let r := (Persist.new (s, [WriteFault.write 1])).run (backend cd) [.stage c, .commit, .commit]
     r.2 = [(c, .error ()), (c, .ok ())] ∧ r.1.staged.isEmpty = true ∧
     contents cd r.1.backend.1.bytes = some ([], some .bad)) := by
  refine ⟨demoCodec, DemoFits, csTx, magicBytes, ⟨magicBytes, 12⟩, demo_good, fits_of _ ?_, ?_, ?_, ?_⟩ <;> decide +kernel

end Verif.Props
