import Verif.Lemmas.Process

/-!
# Whole runs of the programs: `init`, and what is visible of a command
-/

set_option linter.unusedSectionVars false

namespace Verif.Cli
open Verif Verif.CoinSelect Verif.Planner Verif.Spec Verif.Props KeychainStore

variable {D Key Ak Sec XPrv Msg T P : Type} [DescriptorOps D] [DecidableEq D] [LinearOrder P] [ChainPosition P] [LawfulChainPosition P] [LinearOrder T]
  [AsTransaction T] [LawfulTx T] [DecidableEq Key]
  {cd : Codec (KeychainChangeSet Keychain P T)} {dom : KeychainChangeSet Keychain P T → Prop}

theorem initTracker_some (cp : Nat) (ext : D) (int : Option D) : ∃ base : Tracker Keychain D P T, initTracker cp ext int = some base ∧
    (∀ k d, base.txoutIndex.keychains.get k = some d ↔ (k = .external ∧ d = ext ∨ k = .internal ∧ int = some d)) ∧
    (∀ k, base.txoutIndex.lastRevealed.get k = none) ∧ base.txoutIndex.lookahead = OMap.empty ∧
    ∀ cp' (base' : Tracker Keychain D P T), initTracker cp' ext int = some base' → base'.txoutIndex = base.txoutIndex := by
  cases int with
  | none =>
    refine ⟨_, rfl, ?_, fun k => rfl, rfl, ?_⟩
    · intro k d
      simp only [Tracker.setCheckpointLimit, Tracker.empty, KeychainIndex.empty, OMap.get_insert]
      cases k <;> simp [OMap.get_empty, eq_comm]
    · intro cp' base' h; cases h; rfl
  | some d' =>
    refine ⟨_, rfl, ?_, fun k => rfl, rfl, ?_⟩
    · intro k d
      simp only [Tracker.setCheckpointLimit, Tracker.empty, KeychainIndex.empty, OMap.get_insert]
      cases k <;> simp [OMap.get_empty, eq_comm]
    · intro cp' base' h; cases h; rfl

theorem newFromPath_none : newFromPath none = newFromPath (some magicBytes) := by decide +kernel

theorem start_found (hg : GoodCodec cd dom) {cp : Nat} {ext : D} {int : Option D} {base : Tracker Keychain D P T}
    (hb : initTracker cp ext int = some base) {disk : Option Bytes} {l e} (h : found cd disk = some (l, e)) :
    ∃ f tl, AtTail cd f l tl ∧ Parses cd tl [] e tl ∧ f.bytes = disk.getD magicBytes ∧
      start cd cp ext int disk = match base.replay l with
        | none => (some f.bytes, .panicked)
        | some t => (some f.bytes, .running t e f) := by
  have key : ∀ b : Bytes, contents cd b = some (l, e) → newFromPath disk = newFromPath (some b) → b = disk.getD magicBytes →
      ∃ f tl, AtTail cd f l tl ∧ Parses cd tl [] e tl ∧ f.bytes = disk.getD magicBytes ∧
      start cd cp ext int disk = match base.replay l with
        | none => (some f.bytes, .panicked)
        | some t => (some f.bytes, .running t e f) := by
    intro b hc hn hbb
    obtain ⟨u, tl, rfl, h1, h2, -, h4⟩ := openAndRead_eq hg hc
    refine ⟨⟨magicBytes ++ (u ++ tl), (magicBytes ++ u).length⟩, tl, ⟨u, by rw [List.append_assoc], h4⟩,
      (parses_rest hg.lawful hg.nil h2).2, hbb, ?_⟩
    have h3 : newFromPath (some (magicBytes ++ (u ++ tl))) =
        (⟨magicBytes ++ (u ++ tl), magicLen⟩, .ok ⟨magicBytes ++ (u ++ tl), magicLen⟩) := new_ok _
    unfold start
    rw [hb, hn, h3]
    simp only
    unfold loadInto
    rw [readAll_of_parses hg.lawful hg.nil (f := ⟨magicBytes ++ (u ++ tl), magicLen⟩)
      (by show magicLen ≤ (magicBytes ++ (u ++ tl)).length; rw [magic_len]; omega) h2]
    simp only [Option.bind_eq_bind, Option.bind_some]
    cases base.replay l with
    | none => rfl
    | some t =>
      simp only [Option.bind_some, pure, List.length_append]
      congr 3
      · omega
  cases disk with
  | none =>
    cases h
    have hc : contents cd magicBytes = some ([], none) := by
      have := contents_of_parses hg.lawful hg.nil (Parses.done (cd := cd))
      rwa [List.append_nil] at this
    exact key magicBytes hc newFromPath_none rfl
  | some b => exact key b h rfl rfl

theorem start_not_found (hg : GoodCodec cd dom) {cp : Nat} {ext : D} {int : Option D} {base : Tracker Keychain D P T}
    (hb : initTracker cp ext int = some base) {disk : Option Bytes} (h : found cd disk = none) :
    ∃ e, start cd cp ext int disk = (disk, .refused e) := by
  cases disk with
  | none => cases h
  | some b =>
    unfold found at h
    simp only at h
    unfold start
    rw [hb]
    simp only
    rcases hn : newFromPath (some b) with ⟨f, e | s⟩
    · refine ⟨e, ?_⟩
      have hf : f.bytes = b := by
        unfold newFromPath new at hn
        simp only at hn
        split at hn
        · cases hn; rfl
        · split at hn
          · cases hn; rfl
          · cases hn
      rw [← hf]
    · exfalso
      have hm : b.take magicLen = magicBytes := by
        unfold newFromPath new at hn
        simp only at hn
        split at hn
        · cases hn
        · split at hn
          · cases hn
          · rename_i h2; simpa using h2
      rw [magic_split hm] at h
      obtain ⟨l, e, h'⟩ := C43_always_readable hg (b.drop magicLen)
      rw [h'] at h
      cases h

theorem start_running (hg : GoodCodec cd dom) {cp : Nat} {ext : D} {int : Option D} {disk disk' : Option Bytes} {t e f}
    (h : start (P := P) (T := T) cd cp ext int disk = (disk', .running t e f)) :
    ∃ base l tl, initTracker cp ext int = some base ∧ found cd disk = some (l, e) ∧ base.replay l = some t ∧ AtTail cd f l tl ∧
      Parses cd tl [] e tl ∧ f.bytes = disk.getD magicBytes := by
  obtain ⟨base, hb, -⟩ := initTracker_some (P := P) (T := T) cp ext int
  cases hf : found cd disk with
  | none => obtain ⟨e', h'⟩ := start_not_found hg hb hf; rw [h'] at h; cases h
  | some le =>
    obtain ⟨l, e'⟩ := le
    obtain ⟨f', tl, h1, h2, h3, h4⟩ := start_found hg hb hf
    rw [h4] at h
    cases hr : base.replay l with
    | none => rw [hr] at h; cases h
    | some t' => rw [hr] at h; cases h; exact ⟨base, l, tl, hb, rfl, hr, h1, h2, h3⟩

/-! ### the events of a command -/

theorem shaped_store (cs : KeychainChangeSet Keychain P T) (ok : Bool) : Shaped (store cs ok).1 := by
  rcases store_cases cs ok with ⟨-, h⟩ | ⟨h0, -, h⟩ | ⟨h0, -, h⟩ <;> rw [h]
  · exact shaped_nil
  · refine ⟨fun pre c post he => ?_, fun c hc => ?_⟩
    · rcases pre with _ | ⟨x, pre⟩ <;> simp at he
    · simp only [List.mem_singleton, Event.stored.injEq, reduceCtorEq, or_false] at hc; rw [hc]; exact h0
  · refine ⟨fun pre c post he => ?_, fun c hc => ?_⟩
    · rcases pre with _ | ⟨x, pre⟩
      · simp only [List.nil_append, List.cons.injEq] at he; exact he.2.symm
      · simp at he
    · simp only [List.mem_singleton, Event.storeFailed.injEq, reduceCtorEq, false_or] at hc; rw [hc]; exact h0

/-- after writes that succeeded more can follow -/
theorem shaped_append {a b : List (Event P T)} (ha : Shaped a) (hn : ∀ c, Event.storeFailed c ∉ a) (hb : Shaped b) : Shaped (a ++ b) := by
  refine ⟨fun pre c post he => ?_, fun c hc => ?_⟩
  · rcases List.append_eq_append_iff.mp he with ⟨q, h1, h2⟩ | ⟨q, h1, h2⟩
    · exact hb.1 q c post h2
    · cases q with
      | nil => simp only [List.nil_append] at h2; exact hb.1 [] c post h2.symm
      | cons y q =>
        simp only [List.cons_append, List.cons.injEq] at h2
        exact absurd (by rw [h1, ← h2.1]; simp) (hn c)
  · simp only [List.mem_append] at hc
    rcases hc with (hc | hc) | (hc | hc)
    · exact ha.2 c (.inl hc)
    · exact hb.2 c (.inl hc)
    · exact ha.2 c (.inr hc)
    · exact hb.2 c (.inr hc)

theorem store_not_failed {cs : KeychainChangeSet Keychain P T} {ok : Bool} (h : (store cs ok).2 = true) (c) :
    Event.storeFailed c ∉ (store cs ok).1 := by
  rcases store_cases cs ok with ⟨-, h'⟩ | ⟨-, -, h'⟩ | ⟨-, -, h'⟩ <;> rw [h'] at h ⊢
  · simp
  · simp
  · cases h

theorem shaped_visible {e : Event P T} (h : Visible e) : Shaped [e] ∧ ∀ c, Event.storeFailed c ∉ [e] := by
  cases e with
  | stored => cases h
  | storeFailed => cases h
  | shown =>
    refine ⟨⟨fun pre c post he => ?_, fun c hc => by simp at hc⟩, by simp⟩
    rcases pre with _ | ⟨x, pre⟩ <;> simp at he
  | broadcast =>
    refine ⟨⟨fun pre c post he => ?_, fun c hc => by simp at hc⟩, by simp⟩
    rcases pre with _ | ⟨x, pre⟩ <;> simp at he

theorem shaped_command (env : Env D Key Ak Sec XPrv Msg T) (t : Tracker Keychain D P T) (cmd : Command P T) (ok1 ok2 : Bool) :
    Shaped (runCommand env t cmd ok1 ok2).1 := by
  unfold runCommand
  cases cmd with
  | print => exact shaped_nil
  | address c =>
    simp only
    rcases hr : runAddressCmd t c ok1 with _ | ⟨t', es, r⟩
    · exact shaped_nil
    · rcases address_spec hr with ⟨-, h, -⟩ | ⟨q, -, -, ⟨h, h', -⟩ | ⟨-, h, -⟩⟩
      · simp only at h ⊢; rw [h]; exact shaped_nil
      · simp only at h' ⊢; rw [h']
        exact shaped_append (shaped_store _ _) (store_not_failed h)
          (shaped_visible (e := Event.shown .external q.2.1.1 q.2.1.2) trivial).1
      · simp only at h ⊢; rw [h]; exact shaped_store _ _
  | send luck value payee algo sent o =>
    simp only
    unfold runSend
    rcases hr : sendPrepare env luck t value payee algo ok1 with _ | ⟨t1, es, e⟩
    · exact shaped_nil
    · obtain ⟨q, -, h⟩ := prepare_spec hr
      have hs : Shaped es ∧ ((∃ f, e = .ok f) → ∀ c, Event.storeFailed c ∉ es) := by
        rcases h with ⟨-, h, -⟩ | ⟨h0, -, h, -⟩ | ⟨-, -, h, h'⟩ <;> simp only at h <;> rw [h]
        · exact ⟨shaped_nil, fun _ => by simp⟩
        · exact ⟨shaped_store _ _, fun _ => store_not_failed h0⟩
        · refine ⟨shaped_store _ _, fun ⟨f, hf⟩ => ?_⟩
          simp only at h'
          rw [hf] at h'; cases h'
      cases e with
      | error e => exact hs.1
      | ok f =>
        simp only
        have hn := hs.2 ⟨f, rfl⟩
        have h1 : ∀ b, Shaped (es ++ [Event.broadcast f.tx b]) := fun b =>
          shaped_append hs.1 hn (shaped_visible (e := Event.broadcast f.tx b) trivial).1
        split
        · rcases hr2 : sendSucceeded env t1 f o ok2 with _ | ⟨t2, es2, r⟩
          · exact h1 _
          · obtain ⟨q2, -, -, ⟨e, -, h4, -⟩ | ⟨cs, -, h4, -⟩⟩ := succeeded_spec hr2 <;> simp only at h4 ⊢ <;> rw [h4]
            · rw [List.append_nil]; exact h1 _
            · refine shaped_append (h1 _) (fun c hc => ?_) (shaped_store _ _)
              simp only [List.mem_append, List.mem_singleton, reduceCtorEq, or_false] at hc
              exact hn c hc
        · exact h1 _
  | syncElectrum scan o =>
    simp only
    unfold runSyncElectrum
    cases t.determineChangeset scan o with
    | panic => exact shaped_nil
    | err e => exact shaped_nil
    | ok cs => exact shaped_store _ _
  | syncEsplora scan o =>
    simp only
    rcases hr : syncEsplora t scan o ok1 with _ | ⟨t', es⟩
    · exact shaped_nil
    · simp only
      unfold syncEsplora at hr
      rcases hd : t.applyUpdate scan o with _ | ⟨t', e | cs⟩ <;> rw [hd] at hr <;> cases hr
      · exact shaped_nil
      · exact shaped_store _ _

/-- the history of a program that has just loaded `l` -/
def loaded (l : List (KeychainChangeSet Keychain P T)) : List (Event P T) := l.map .stored

theorem diskOf_loaded (l : List (KeychainChangeSet Keychain P T)) : diskOf (loaded l) = l := by
  unfold diskOf loaded
  induction l with
  | nil => rfl
  | cons c l ih => simp only [List.map_cons, List.filterMap_cons]; rw [ih]

theorem recoverable_loaded (base : Tracker Keychain D P T) (l : List (KeychainChangeSet Keychain P T)) : Recoverable base (loaded l) := by
  have h : ∀ e ∈ loaded l, ¬ Visible e := by
    intro e he
    obtain ⟨c, -, rfl⟩ := List.mem_map.1 he
    exact id
  have := recoverable_append (base := base) (tr := []) ⟨fun pre post k i spk he => by simp at he, fun pre post tx ok he => by simp at he⟩ h
  simpa using this

/-- whatever a command shows or hands to the network, the database then holds what a new start needs to know about it -/
theorem recoverable_command {env : Env D Key Ak Sec XPrv Msg T} {base t : Tracker Keychain D P T} (hb : BaseOk base) {l}
    (hl : base.replay l = some t) (cmd : Command P T) (ok1 ok2 : Bool) :
    Recoverable base (loaded l ++ (runCommand env t cmd ok1 ok2).1) := by
  have h0 := recoverable_loaded base l
  have ht : TrackerOk base t := reload_ok hb hl
  have hl0 : base.replay (diskOf (loaded l)) = some t := by rw [diskOf_loaded]; exact hl
  have hi : InSync base ⟨t, [], loaded l⟩ := inSync_reload hl0
  have inv : ∀ es : List (Event P T), (∀ e ∈ es, ¬ Visible e) → Recoverable base (loaded l ++ es) := fun es h => recoverable_append h0 h
  have nil : Recoverable base (loaded l ++ []) := inv [] (fun e he => by cases he)
  unfold runCommand
  cases cmd with
  | print => exact nil
  | address c =>
    simp only
    rcases hr : runAddressCmd t c ok1 with _ | ⟨t', es, r⟩
    · exact nil
    · have := step_recoverable (env := env) hb (w := ⟨t, [], loaded l⟩) (a := .address c ok1) (w' := ⟨t', [], loaded l ++ es⟩) ht hi
        (fun j hj => by cases hj) h0 (by simp only [step, hr])
      exact this
  | send luck value payee algo sent o =>
    simp only
    unfold runSend
    rcases hr : sendPrepare env luck t value payee algo ok1 with _ | ⟨t1, es, e⟩
    · exact nil
    · obtain ⟨q, hq, h⟩ := prepare_spec hr
      have hes : ∀ e ∈ es, ¬ Visible e := by
        rcases h with ⟨-, e2, -⟩ | ⟨-, -, e2, -⟩ | ⟨-, -, e2, -⟩ <;> simp only at e2 <;> subst e2
        · intro e he; cases he
        · exact store_invisible _ _
        · exact store_invisible _ _
      cases e with
      | error e => exact inv es hes
      | ok f =>
        have hbc : ∀ b, Recoverable base (loaded l ++ es ++ [.broadcast f.tx b]) := by
          intro b
          rcases h with ⟨-, e2, h'⟩ | ⟨hs, e1, e2, f', hf, -, v, hv⟩ | ⟨-, -, -, h'⟩
          · simp only at e2 h'
            subst e2
            obtain ⟨e, he⟩ | ⟨f', hf, -, hf2⟩ := h'
            · cases he
            · cases hf
              rw [List.append_nil]
              exact recoverable_broadcast h0 hl0 (by rw [hf2]; intro out ho; cases ho)
          · simp only at e1 e2 hf
            cases hf
            obtain ⟨t', g1, -, g3⟩ := inSync_ops hb (w := ⟨t, [], loaded l⟩) (w' := ⟨t1, [], loaded l ++ es⟩) ht hi
              (ops := [.nextUnusedSpk (internalKeychain t), .markUsed (internalKeychain t) q.2.1.1])
              (log := [.ofAdditions q.2.2, .empty]) (by
                rw [runFrom_two (next_step hq) (mark_step _ _ _)]
                simp only
                rw [e1]; rfl) (by
                simp only
                rcases disk_store (loaded l) (.ofAdditions q.2.2) ok1 [] rfl with hd | ⟨-, -, hd⟩
                · rw [List.append_nil] at hd
                  rw [e2, hd]
                  congr 1
                · rw [hs] at hd; cases hd)
            refine recoverable_broadcast (recoverable_append h0 hes) g1 ?_
            intro out ho
            rw [hv] at ho
            simp only [List.tail_cons, List.mem_singleton] at ho
            subst ho
            obtain ⟨k1, k2⟩ := nextUnused_knows ht.reach (ht.derivable hb) hq
            refine ⟨internalKeychain t, q.2.1.1, knows_same (t := t1) g3 ?_⟩
            rw [e1]
            exact ⟨k1, k2⟩
          · cases h'
        simp only
        have hbc' : ∀ b, Recoverable base (loaded l ++ (es ++ [.broadcast f.tx b])) := fun b => by
          rw [← List.append_assoc]; exact hbc b
        split
        · rcases hr2 : sendSucceeded env t1 f o ok2 with _ | ⟨t2, es2, r⟩
          · exact hbc' _
          · simp only
            rw [← List.append_assoc]
            refine recoverable_append (hbc' _) ?_
            obtain ⟨q2, -, -, ⟨e, -, h4, -⟩ | ⟨cs, -, h4, -⟩⟩ := succeeded_spec hr2 <;> simp only at h4 <;> subst h4
            · intro e he; cases he
            · exact store_invisible _ _
        · exact hbc' _
  | syncElectrum scan o =>
    simp only
    unfold runSyncElectrum
    cases t.determineChangeset scan o with
    | panic => exact nil
    | err e => exact nil
    | ok cs => exact inv _ (store_invisible _ _)
  | syncEsplora scan o =>
    simp only
    rcases hr : syncEsplora t scan o ok1 with _ | ⟨t', es⟩
    · exact nil
    · exact inv _ (syncEsplora_invisible hr)

theorem recoverable_cut {base : Tracker Keychain D P T} {tr es es' : List (Event P T)} (h : Recoverable base (tr ++ es)) (hc : Cut es es') :
    Recoverable base (tr ++ es') := by
  cases hc with
  | between hp =>
    obtain ⟨r, rfl⟩ := hp
    rw [← List.append_assoc] at h
    exact recoverable_prefix h
  | @writing pre c post =>
    rw [← List.append_assoc] at h ⊢
    refine recoverable_append (recoverable_prefix h) ?_
    intro e he
    simp only [List.mem_singleton] at he
    subst he
    exact id

end Verif.Cli
