import Verif.Lemmas.Process2
import Verif.Lemmas.Sync2

/-!
# Whole runs of the programs: histories
-/

set_option linter.unusedSectionVars false

namespace Verif.Cli
open Verif Verif.CoinSelect Verif.Planner Verif.Spec Verif.Props KeychainStore

variable {D Key Ak Sec XPrv Msg T P : Type} [DescriptorOps D] [DecidableEq D] [LinearOrder P] [ChainPosition P] [LawfulChainPosition P] [LinearOrder T]
  [AsTransaction T] [LawfulTx T] [DecidableEq Key]
  {cd : Codec (KeychainChangeSet Keychain P T)} {dom : KeychainChangeSet Keychain P T → Prop}

theorem replay_cons (t : Tracker Keychain D P T) (c : KeychainChangeSet Keychain P T) (l : List (KeychainChangeSet Keychain P T)) :
    t.replay (c :: l) = (t.applyChangeset c).bind (fun t' => t'.replay l) := by
  unfold Tracker.replay; rw [List.foldlM_cons]; rfl

/-- the index after loading does not depend on the chain -/
theorem replay_index {log : List (KeychainChangeSet Keychain P T)} {t t' r : Tracker Keychain D P T} (hi : t'.txoutIndex = t.txoutIndex)
    (h : t.replay log = some r) : ∃ r', t'.replay log = some r' ∧ r'.txoutIndex = r.txoutIndex := by
  induction log generalizing t t' with
  | nil => cases h; exact ⟨t', rfl, hi⟩
  | cons c log ih =>
    rw [replay_cons] at h ⊢
    have key : ∀ t1, t.applyChangeset c = some t1 → ∃ t2, t'.applyChangeset c = some t2 ∧ t2.txoutIndex = t1.txoutIndex := by
      intro t1 h1
      unfold Tracker.applyChangeset at h1 ⊢
      rw [hi]
      cases e1 : t.txoutIndex.applyAdditions c.derivationIndices with
      | none => rw [e1] at h1; cases h1
      | some i =>
        rw [e1] at h1
        simp only [Option.bind_eq_bind, Option.bind_some] at h1 ⊢
        cases e2 : i.scan c.chainGraph.graph.txouts with
        | none => rw [e2] at h1; cases h1
        | some q => rw [e2] at h1; cases h1; exact ⟨_, rfl, rfl⟩
    cases h1 : t.applyChangeset c with
    | none => rw [h1] at h; cases h
    | some t1 =>
      rw [h1] at h
      obtain ⟨t2, e1, e2⟩ := key t1 h1
      rw [e1]
      exact ih e2 h

/-- the chain and the graph after loading do not depend on the index -/
theorem replay_chain {log : List (KeychainChangeSet Keychain P T)} {t r : Tracker Keychain D P T} (h : t.replay log = some r) :
    r.chainGraph = log.foldl (fun g c => g.applyChangeset c.chainGraph) t.chainGraph := by
  induction log generalizing t with
  | nil => cases h; rfl
  | cons c log ih =>
    rw [replay_cons] at h
    cases h1 : t.applyChangeset c with
    | none => rw [h1] at h; cases h
    | some t1 =>
      rw [h1] at h
      rw [ih h, List.foldl_cons]
      congr 1
      unfold Tracker.applyChangeset at h1
      cases e1 : t.txoutIndex.applyAdditions c.derivationIndices with
      | none => rw [e1] at h1; cases h1
      | some i =>
        rw [e1] at h1
        simp only [Option.bind_eq_bind, Option.bind_some] at h1
        cases e2 : i.scan c.chainGraph.graph.txouts with
        | none => rw [e2] at h1; cases h1
        | some q => rw [e2] at h1; cases h1; rfl

/-- nothing panics while loading changesets with indices that can be derived -/
theorem replay_ok {log : List (KeychainChangeSet Keychain P T)} {t : Tracker Keychain D P T} (hf : Sync.Fit t.txoutIndex)
    (h : ∀ c ∈ log, ∀ k i, c.derivationIndices.get k = some i → ∃ d, t.txoutIndex.keychains.get k = some d ∧ i ≤ cap d) :
    ∃ r, t.replay log = some r := by
  induction log generalizing t with
  | nil => exact ⟨t, rfl⟩
  | cons c log ih =>
    rw [replay_cons]
    obtain ⟨s, h1, h2, h3, -⟩ := hf.additions c.derivationIndices (h c (by simp))
    obtain ⟨q, h4, h5⟩ := h2.scan c.chainGraph.graph.txouts
    have h6 : t.applyChangeset c = some ⟨q.1, t.chainGraph.applyChangeset c.chainGraph⟩ := by
      unfold Tracker.applyChangeset
      rw [h1]
      simp only [Option.bind_eq_bind, Option.bind_some, h4]
      rfl
    rw [h6]
    have h7 := (applyChangeset_grew h6).kc
    refine ih h5 ?_
    intro c' hc' k i hk
    rw [h7]
    exact h c' (by simp [hc']) k i hk

/-- the wallet knows what an event showed to the outside -/
def KnownBy (t : Tracker Keychain D P T) : Event P T → Prop
  | .shown k i spk => Knows t k i spk
  | .broadcast tx _ => ∀ out ∈ tx.output.tail, ∃ k i, Knows t k i out.spk
  | _ => True

theorem KnownBy.grew {t t' : Tracker Keychain D P T} (hr : KeychainIndex.Reachable t.txoutIndex) (hd : AllDerivable t.txoutIndex)
    (hg : Grew t.txoutIndex t'.txoutIndex) {e : Event P T} (h : KnownBy t e) : KnownBy t' e := by
  cases e with
  | shown k i spk => exact knows_grew hr hd hg h
  | broadcast tx ok =>
    intro out ho
    obtain ⟨k, i, hk⟩ := h out ho
    exact ⟨k, i, knows_grew hr hd hg hk⟩
  | _ => trivial

/-! ### one run -/

theorem process_nothing {env : Env D Key Ak Sec XPrv Msg T} {ext : D} {int : Option D} (hg : GoodCodec cd dom) {disk disk' : Option Bytes}
    {es : List (Event P T)} (h : Process env cd ext int disk es disk') (hf : found cd disk = none) : es = [] ∧ disk' = disk := by
  cases h with
  | early => exact ⟨rfl, rfl⟩
  | creating k => cases hf
  | stopped cp s hs =>
    obtain ⟨base, hb, -⟩ := initTracker_some (P := P) (T := T) cp ext int
    obtain ⟨e, h'⟩ := start_not_found hg hb hf
    rw [h'] at hs
    cases hs
    exact ⟨rfl, rfl⟩
  | command cp t e f f' cmd ok1 ok2 hs _ _ =>
    obtain ⟨base, hb, -⟩ := initTracker_some (P := P) (T := T) cp ext int
    obtain ⟨e, h'⟩ := start_not_found hg hb hf
    rw [h'] at hs
    cases hs

theorem found_getD (hg : GoodCodec cd dom) (disk : Option Bytes) : found cd (some (disk.getD magicBytes)) = found cd disk := by
  cases disk with
  | none =>
    have := contents_of_parses hg.lawful hg.nil (Parses.done (cd := cd))
    rw [List.append_nil] at this
    exact this
  | some b => rfl

theorem stopped_found {ext : D} {int : Option D} (hg : GoodCodec cd dom) {cp : Nat} {disk disk' : Option Bytes} {s : Started D P T}
    (hs : start cd cp ext int disk = (disk', s)) : found cd disk' = found cd disk := by
  obtain ⟨base, hb, -⟩ := initTracker_some (P := P) (T := T) cp ext int
  cases hf : found cd disk with
  | none => obtain ⟨e, h'⟩ := start_not_found hg hb hf; rw [h'] at hs; cases hs; exact hf
  | some le =>
    obtain ⟨l, e⟩ := le
    obtain ⟨f, tl, -, -, h3, h4⟩ := start_found hg hb hf
    rw [h4] at hs
    rw [← hf, ← found_getD hg disk, ← h3]
    cases hr : base.replay l <;> rw [hr] at hs <;> cases hs <;> rfl

/-- what was in the file stays, followed by what the run has written; only a run that dies while it creates the file leaves
something that is not a database -/
theorem process_grow {env : Env D Key Ak Sec XPrv Msg T} {ext : D} {int : Option D} (hg : GoodCodec cd dom) {disk disk' : Option Bytes}
    {es : List (Event P T)} (h : Process env cd ext int disk es disk') (hd : ∀ c, Event.stored c ∈ es → dom c) {l e}
    (hf : found cd disk = some (l, e)) :
    (∃ l' e', found cd disk' = some (l ++ diskOf es ++ l', e')) ∨ (disk = none ∧ es = [] ∧ ∃ k, disk' = some (crashInCreate k)) := by
  cases h with
  | early => exact .inl ⟨[], e, by simpa [diskOf] using hf⟩
  | creating k => exact .inr ⟨rfl, rfl, k, rfl⟩
  | stopped cp s hs => exact .inl ⟨[], e, by rw [stopped_found hg hs]; simpa [diskOf] using hf⟩
  | command cp t e' f f' cmd ok1 ok2 hs hc he =>
    obtain ⟨base, l1, tl, -, h2, -, h4, -⟩ := start_running hg hs
    rw [hf] at h2
    cases h2
    obtain ⟨l', e', h'⟩ := effects_grow hg he (shaped_cut (shaped_command env t cmd ok1 ok2) hc) hd h4
    exact .inl ⟨l', e', h'⟩

/-- what the run shows to the outside is known from what is then in the file -/
theorem process_known {env : Env D Key Ak Sec XPrv Msg T} {ext : D} {int : Option D} (hg : GoodCodec cd dom)
    (hx : Derivable ext) (hx' : ∀ d ∈ int, Derivable d) {disk disk' : Option Bytes}
    {es : List (Event P T)} (h : Process env cd ext int disk es disk') (hd : ∀ c, Event.stored c ∈ es → dom c) (ev : Event P T)
    (hm : ev ∈ es) (hv : Visible ev) :
    ∃ l e, found cd disk' = some (l, e) ∧ ∃ p, p <+: l ∧ ∃ cp base t, initTracker cp ext int = some base ∧ base.replay p = some t ∧
      KnownBy t ev := by
  cases h with
  | early => cases hm
  | creating k => cases hm
  | stopped cp s hs => cases hm
  | command cp t e' f f' cmd ok1 ok2 hs hc he =>
    obtain ⟨base, l1, tl, h1, h2, h3, h4, -⟩ := start_running hg hs
    obtain ⟨l', e', h'⟩ := effects_grow hg he (shaped_cut (shaped_command env t cmd ok1 ok2) hc) hd h4
    obtain ⟨r1, r2⟩ := recoverable_cut (recoverable_command (env := env) (initTracker_base hx hx' h1) h3 cmd ok1 ok2) hc
    obtain ⟨pre, post, rfl⟩ := List.append_of_mem hm
    refine ⟨_, e', h', l1 ++ diskOf pre, ⟨diskOf (ev :: post) ++ l', by rw [diskOf_append]; simp only [List.append_assoc]⟩, cp, base, ?_⟩
    have hp : diskOf (loaded l1 ++ pre) = l1 ++ diskOf pre := by rw [diskOf_append, diskOf_loaded]
    cases ev with
    | stored c => cases hv
    | storeFailed c => cases hv
    | shown k i spk =>
      obtain ⟨t', g1, g2⟩ := r1 (loaded l1 ++ pre) post k i spk (by simp)
      exact ⟨t', h1, by rw [← hp]; exact g1, g2⟩
    | broadcast tx ok =>
      obtain ⟨t', g1, g2⟩ := r2 (loaded l1 ++ pre) post tx ok (by simp)
      exact ⟨t', h1, by rw [← hp]; exact g1, g2⟩

/-! ### histories -/

theorem history_none {env : Env D Key Ak Sec XPrv Msg T} {ext : D} {int : Option D} (disk0) {tr : List (Event P T)} {disk}
    (h : History env cd ext int disk0 tr disk) (hn : disk = none) : tr = [] ∧ disk0 = none := by
  induction h with
  | init => exact ⟨rfl, hn⟩
  | @run tr es disk disk' _ hp ih =>
    cases hp with
    | early => rw [(ih hn).1]; exact ⟨rfl, (ih hn).2⟩
    | creating k => cases hn
    | stopped cp s hs =>
      subst hn
      have : disk = none := by
        obtain ⟨base, hb, -⟩ := initTracker_some (P := P) (T := T) cp ext int
        unfold start at hs
        rw [hb] at hs
        simp only at hs
        rcases h1 : newFromPath disk with ⟨f, e | s⟩ <;> rw [h1] at hs
        · cases hs
        · simp only at hs
          cases h2 : loadInto cd s base <;> rw [h2] at hs <;> cases hs
      rw [(ih this).1]; exact ⟨rfl, (ih this).2⟩
    | command => cases hn

theorem history_known {env : Env D Key Ak Sec XPrv Msg T} {ext : D} {int : Option D} (hg : GoodCodec cd dom)
    (hx : Derivable ext) (hx' : ∀ d ∈ int, Derivable d) {disk0} {tr : List (Event P T)} {disk}
    (h : History env cd ext int disk0 tr disk) (hd : ∀ c, Event.stored c ∈ tr → dom c) (ev : Event P T) (hm : ev ∈ tr)
    (hv : Visible ev) :
    ∃ l e, found cd disk = some (l, e) ∧ ∃ p, p <+: l ∧ ∃ cp base t, initTracker cp ext int = some base ∧ base.replay p = some t ∧
      KnownBy t ev := by
  induction h with
  | init => cases hm
  | @run tr es disk disk' hh hp ih =>
    rcases List.mem_append.1 hm with hm' | hm'
    · obtain ⟨l, e, h1, p, h2, h3⟩ := ih (fun c hc => hd c (List.mem_append_left _ hc)) hm'
      rcases process_grow hg hp (fun c hc => hd c (List.mem_append_right _ hc)) h1 with ⟨l', e', h4⟩ | ⟨h4, -⟩
      · refine ⟨_, e', h4, p, ?_, h3⟩
        rw [List.append_assoc]
        exact h2.trans (List.prefix_append _ _)
      · rw [(history_none _ hh h4).1] at hm'; cases hm'
    · exact process_known hg hx hx' hp (fun c hc => hd c (List.mem_append_right _ hc)) ev hm' hv

theorem diskOf_mem {c : KeychainChangeSet Keychain P T} {es : List (Event P T)} (h : Event.stored c ∈ es) : c ∈ diskOf es := by
  unfold diskOf
  exact List.mem_filterMap.2 ⟨_, h, rfl⟩

theorem history_stored {env : Env D Key Ak Sec XPrv Msg T} {ext : D} {int : Option D} (hg : GoodCodec cd dom)
    {disk0 l0 e0} {tr : List (Event P T)} {disk} (h0 : found cd disk0 = some (l0, e0))
    (h : History env cd ext int disk0 tr disk) (hd : ∀ c, Event.stored c ∈ tr → dom c) :
    (tr = [] ∧ found cd disk = none ∧ disk0 = none) ∨ ∃ l e, found cd disk = some (l, e) ∧ l0 <+: l ∧ (l0 ++ diskOf tr).Sublist l := by
  induction h with
  | init => exact .inr ⟨l0, e0, h0, List.prefix_refl _, by simp [diskOf]⟩
  | @run tr es disk disk' hh hp ih =>
    rcases ih (fun c hc => hd c (List.mem_append_left _ hc)) with ⟨h1, h2, h3⟩ | ⟨l, e, h1, h1', h2⟩
    · obtain ⟨h4, h5⟩ := process_nothing hg hp h2
      exact .inl ⟨by rw [h1, h4]; rfl, by rw [h5]; exact h2, h3⟩
    · rcases process_grow hg hp (fun c hc => hd c (List.mem_append_right _ hc)) h1 with ⟨l', e', h4⟩ | ⟨h4, h5, k, h6⟩
      · refine .inr ⟨_, e', h4, ?_, ?_⟩
        · rw [List.append_assoc]; exact h1'.trans (List.prefix_append _ _)
        · rw [diskOf_append, ← List.append_assoc]
          exact (h2.append (List.Sublist.refl _)).trans (List.sublist_append_left _ _)
      · obtain ⟨htr, hn0⟩ := history_none _ hh h4
        cases hf : found cd disk' with
        | none => exact .inl ⟨by rw [htr, h5]; rfl, rfl, hn0⟩
        | some le =>
          rw [hn0] at h0
          cases h0
          refine .inr ⟨le.1, le.2, rfl, List.nil_prefix, ?_⟩
          rw [htr, h5]
          exact List.nil_sublist _

/-! ### clean histories -/

theorem crashInCreate_found (hg : GoodCodec cd dom) (k : Nat) :
    (k < 12 ∧ found cd (some (crashInCreate k)) = none) ∨ found cd (some (crashInCreate k)) = some ([], none) := by
  by_cases hk : k < 12
  · refine .inl ⟨hk, ?_⟩
    show contents cd (crashInCreate k) = none
    unfold contents
    rw [C44_crash_in_create k hk]
  · right
    have : crashInCreate k = magicBytes := by
      unfold crashInCreate
      rw [List.take_of_length_le (by show magicBytes.length ≤ k; have : magicBytes.length = 12 := rfl; omega)]
      decide +kernel
    rw [this]
    have := contents_of_parses hg.lawful hg.nil (Parses.done (cd := cd))
    rw [List.append_nil] at this
    exact this

theorem _root_.Verif.Spec.CleanHistory.history {env : Env D Key Ak Sec XPrv Msg T} {ext : D} {int : Option D} {tr : List (Event P T)} {disk}
    (h : CleanHistory env cd ext int tr disk) : History env cd ext int none tr disk := by
  induction h with
  | init => exact .init
  | run _ hp _ ih => exact .run ih hp

theorem clean_log {env : Env D Key Ak Sec XPrv Msg T} {ext : D} {int : Option D} (hg : GoodCodec cd dom)
    {tr : List (Event P T)} {disk} (h : CleanHistory env cd ext int tr disk)
    (hd : ∀ c, Event.stored c ∈ tr ∨ Event.storeFailed c ∈ tr → dom c) :
    (∃ l e, found cd disk = some (l, e) ∧ Survives tr l) ∨ (tr = [] ∧ ∃ k, k < 12 ∧ disk = some (crashInCreate k)) := by
  induction h with
  | init => exact .inl ⟨[], none, rfl, .nil⟩
  | @run tr es disk disk' hh hp hc ih =>
    have hd1 : ∀ c, Event.stored c ∈ tr ∨ Event.storeFailed c ∈ tr → dom c := fun c h =>
      hd c (h.imp (List.mem_append_left _) (List.mem_append_left _))
    have hd2 : ∀ c, Event.stored c ∈ es ∨ Event.storeFailed c ∈ es → dom c := fun c h =>
      hd c (h.imp (List.mem_append_right _) (List.mem_append_right _))
    rcases ih hd1 with ⟨l, e, h1, h2⟩ | ⟨h1, k, h2, h3⟩
    · cases hp with
      | early => exact .inl ⟨l, e, h1, by rw [List.append_nil]; exact h2⟩
      | creating k =>
        have htr := (history_none _ hh.history rfl).1
        subst htr
        rcases crashInCreate_found hg k with ⟨h3, -⟩ | h3
        · exact .inr ⟨rfl, k, h3, rfl⟩
        · exact .inl ⟨[], none, h3, .nil⟩
      | stopped cp s hs => exact .inl ⟨l, e, by rw [stopped_found hg hs]; exact h1, by rw [List.append_nil]; exact h2⟩
      | command cp t e' f f' cmd ok1 ok2 hs hcut he =>
        obtain ⟨base, l1, tl, -, g2, -, g4, g5, -⟩ := start_running hg hs
        rw [h1] at g2
        cases g2
        obtain ⟨l', e2, g6, g7⟩ := effects_clean hg he (shaped_cut (shaped_command env t cmd ok1 ok2) hcut) hd2 g4 g5 (by
          cases e with
          | none => exact .inl ((parses_rest hg.lawful hg.nil g5).1.1 rfl)
          | some e => exact .inr (hc l e h1))
        exact .inl ⟨_, e2, g6, survives_append h2 g7⟩
    · subst h3
      have hn : found cd (some (crashInCreate k)) = none := by
        show contents cd (crashInCreate k) = none
        unfold contents
        rw [C44_crash_in_create k h2]
      obtain ⟨h4, h5⟩ := process_nothing hg hp hn
      exact .inr ⟨by rw [h1, h4]; rfl, k, h2, h5⟩

theorem survives_mem {tr : List (Event P T)} {l} (h : Survives tr l) {c} (hc : c ∈ l) : Event.stored c ∈ tr ∨ Event.storeFailed c ∈ tr := by
  induction h with
  | nil => cases hc
  | stored _ ih =>
    rcases List.mem_append.1 hc with hc | hc
    · exact (ih hc).imp (List.mem_append_left _) (List.mem_append_left _)
    · simp only [List.mem_singleton] at hc; subst hc; exact .inl (by simp)
  | lost _ ih => exact (ih hc).imp (List.mem_append_left _) (List.mem_append_left _)
  | kept _ ih =>
    rcases List.mem_append.1 hc with hc | hc
    · exact (ih hc).imp (List.mem_append_left _) (List.mem_append_left _)
    · simp only [List.mem_singleton] at hc; subst hc; exact .inr (by simp)
  | shown _ ih => exact (ih hc).imp (List.mem_append_left _) (List.mem_append_left _)
  | broadcast _ ih => exact (ih hc).imp (List.mem_append_left _) (List.mem_append_left _)

/-- the tracker of `init` is ready to load -/
theorem initTracker_fit {cp : Nat} {ext : D} {int : Option D} {base : Tracker Keychain D P T} (hx : Derivable ext)
    (hx' : ∀ d ∈ int, Derivable d) (hb : initTracker cp ext int = some base) (hc : NoCollision base.txoutIndex) : Sync.Fit base.txoutIndex := by
  have hbo := initTracker_base hx hx' hb
  obtain ⟨base', h1, -, h3, h4, -⟩ := initTracker_some (P := P) (T := T) cp ext int
  rw [hb] at h1
  cases h1
  refine ⟨KeychainIndex.reachable_inv hbo.reach hbo.derivable, hbo.derivable, hc, fun k => ?_⟩
  unfold numRevealed KeychainIndex.lastRevealedIndex KeychainIndex.lookaheadOf
  rw [h3, h4]
  exact ⟨by simp, by simp [OMap.get_empty]⟩

end Verif.Cli
