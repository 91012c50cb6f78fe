import Verif.Lemmas.Process3

/-!
# Whole runs of the programs: the tracker at the end of a command, and what the next start finds
-/

set_option linter.unusedSectionVars false

namespace Verif.Cli
open Verif Verif.CoinSelect Verif.Planner Verif.Spec Verif.Props KeychainStore

variable {D Key Ak Sec XPrv Msg T P : Type} [DescriptorOps D] [DecidableEq D] [LinearOrder P] [ChainPosition P] [LawfulChainPosition P] [LinearOrder T]
  [AsTransaction T] [LawfulTx T] [DecidableEq Key]

theorem step_sync {env : Env D Key Ak Sec XPrv Msg T} {base : Tracker Keychain D P T} (hb : BaseOk base) {w w' : World D P T}
    (ht : TrackerOk base w.tracker) (hi : InSync base w) {a : Act P T} (hc : ¬ Crashes a) (h : step env base w a = some w')
    (hm : ¬ MayLose w w' a) : InSync base w' ∧ TrackerOk base w'.tracker := by
  obtain ⟨ops, log, -, h1, h2 | ⟨-, h2⟩⟩ := step_ops hc h
  · exact ⟨inSync_ops hb ht hi h1 h2, step_trackerOk hb ht h⟩
  · exact absurd h2 hm

/-- a command whose writes succeed, other than a `Send` without change, leaves the program with what the next start finds -/
theorem command_sync {env : Env D Key Ak Sec XPrv Msg T} {base t t' : Tracker Keychain D P T} (hb : BaseOk base) {l}
    (hl : base.replay l = some t) {cmd : Command P T} {es} (h : runCommand env t cmd true true = (es, some t'))
    (hw : WithChange cmd es) : InSync base ⟨t', [], loaded l ++ es⟩ := by
  have ht : TrackerOk base t := reload_ok hb hl
  have hl0 : base.replay (diskOf (loaded l)) = some t := by rw [diskOf_loaded]; exact hl
  have hi : InSync base ⟨t, [], loaded l⟩ := inSync_reload hl0
  unfold runCommand at h
  cases cmd with
  | print => cases h; rw [List.append_nil]; exact hi
  | address c =>
    simp only at h
    rcases hr : runAddressCmd t c true with _ | ⟨t1, es1, r⟩ <;> rw [hr] at h <;> cases h
    exact (step_sync (env := env) hb (w := ⟨t, [], loaded l⟩) (w' := ⟨t', [], loaded l ++ es⟩) ht hi (a := .address c true) id
      (by simp only [step, hr]) (fun h => by cases h)).1
  | syncElectrum scan o =>
    simp only at h
    unfold runSyncElectrum at h
    have hs : syncElectrum t scan o true = some (t', es) := by
      unfold syncElectrum
      cases hd : t.determineChangeset scan o with
      | panic => rw [hd] at h; cases h
      | err e => rw [hd] at h; cases h; rfl
      | ok cs =>
        rw [hd] at h
        simp only [Prod.mk.injEq] at h ⊢
        obtain ⟨h1, h2⟩ := h
        split at h2
        · rename_i hs; rw [if_pos hs, h2]; simp [h1]
        · rename_i hs; rw [if_neg hs]; simpa [h1] using h2
    exact (step_sync (env := env) hb (w := ⟨t, [], loaded l⟩) (w' := ⟨t', [], loaded l ++ es⟩) ht hi (a := .syncElectrum scan o true) id
      (by simp only [step, hs]) id).1
  | syncEsplora scan o =>
    simp only at h
    rcases hr : syncEsplora t scan o true with _ | ⟨t1, es1⟩ <;> rw [hr] at h <;> cases h
    exact (step_sync (env := env) hb (w := ⟨t, [], loaded l⟩) (w' := ⟨t', [], loaded l ++ es⟩) ht hi (a := .syncEsplora scan o true) id
      (by simp only [step, hr]) (fun h => by cases h)).1
  | send luck value payee algo sent o =>
    simp only at h
    unfold runSend at h
    rcases hr : sendPrepare env luck t value payee algo true with _ | ⟨t1, es1, e | f⟩
    · rw [hr] at h; cases h
    · rw [hr] at h
      cases h
      exfalso
      obtain ⟨tx, ok, hm, -⟩ := hw
      obtain ⟨q, -, h⟩ := prepare_spec hr
      have hes : ∀ e ∈ es, ¬ Visible e := by
        rcases h with ⟨-, e2, -⟩ | ⟨-, -, e2, -⟩ | ⟨-, -, e2, -⟩ <;> simp only at e2 <;> subst e2
        · intro e he; cases he
        · exact store_invisible _ _
        · exact store_invisible _ _
      exact hes _ hm trivial
    · rw [hr] at h
      simp only at h
      have hch : f.change.isSome = true := by
        obtain ⟨tx, ok, hm, htail⟩ := hw
        obtain ⟨q, -, h3⟩ := prepare_spec hr
        have htx : tx = f.tx := by
          have hes : ∀ e ∈ es1, ¬ Visible e := by
            rcases h3 with ⟨-, e2, -⟩ | ⟨-, -, e2, -⟩ | ⟨-, -, e2, -⟩ <;> simp only at e2 <;> subst e2
            · intro e he; cases he
            · exact store_invisible _ _
            · exact store_invisible _ _
          have hs2 : ∀ t2 es2 r, sendSucceeded env t1 f o true = some (t2, es2, r) → ∀ e ∈ es2, ¬ Visible e := by
            intro t2 es2 r hr2
            obtain ⟨q2, -, -, ⟨e, -, h4, -⟩ | ⟨cs, -, h4, -⟩⟩ := succeeded_spec hr2 <;> simp only at h4 <;> subst h4
            · intro e he; cases he
            · exact store_invisible _ _
          split at h
          · rcases hr2 : sendSucceeded env t1 f o true with _ | ⟨t2, es2, r⟩ <;> rw [hr2] at h <;> cases h
            simp only [List.mem_append, List.mem_singleton] at hm
            rcases hm with (hm | hm) | hm
            · exact absurd trivial (hes _ hm)
            · cases hm; rfl
            · exact absurd trivial (hs2 _ _ _ hr2 _ hm)
          · cases h
            simp only [List.mem_append, List.mem_singleton] at hm
            rcases hm with hm | hm
            · exact absurd trivial (hes _ hm)
            · cases hm; rfl
        rcases h3 with ⟨-, -, ⟨e, he⟩ | ⟨f', hf, -, hf2⟩⟩ | ⟨-, -, -, f', hf, hf2, -⟩ | ⟨-, -, -, he⟩
        · cases he
        · cases hf; rw [htx, hf2] at htail; exact absurd rfl htail
        · cases hf; rw [hf2]; rfl
        · cases he
      obtain ⟨i1, ht1⟩ := step_sync (env := env) hb (w := ⟨t, [], loaded l⟩) (w' := ⟨t1, [⟨f, none⟩], loaded l ++ es1⟩) ht hi
        (a := .sendPrepare luck value payee algo true) id (by simp only [step, hr]; rfl) (by
          rintro (h | h)
          · cases h
          · exact h ⟨f, rfl, hch⟩)
      have fin : ∀ b t2 es2, (b = true → ∃ r, sendSucceeded env t1 f o true = some (t2, es2, r)) →
          (b = false → t2 = sendFailed t1 f ∧ es2 = []) → InSync base ⟨t2, [], loaded l ++ (es1 ++ [.broadcast f.tx b] ++ es2)⟩ := by
        intro b t2 es2 h1 h2
        obtain ⟨i2, ht2⟩ := step_sync (env := env) hb (w := ⟨t1, [⟨f, none⟩], loaded l ++ es1⟩)
          (w' := ⟨t1, [⟨f, some b⟩], loaded l ++ es1 ++ [.broadcast f.tx b]⟩) ht1 i1 (a := .broadcast 0 b) id rfl id
        have := (step_sync (env := env) hb (w := ⟨t1, [⟨f, some b⟩], loaded l ++ es1 ++ [.broadcast f.tx b]⟩)
          (w' := ⟨t2, [], loaded l ++ es1 ++ [.broadcast f.tx b] ++ es2⟩) ht2 i2 (a := .sendFinish 0 o true) id (by
            cases b with
            | true => obtain ⟨r, hr⟩ := h1 rfl; simp only [step, List.getElem?_cons_zero, hr]; rfl
            | false => obtain ⟨rfl, rfl⟩ := h2 rfl; rw [List.append_nil]; rfl) (fun h => by cases h)).1
        have e : loaded l ++ (es1 ++ [.broadcast f.tx b] ++ es2) = loaded l ++ es1 ++ [.broadcast f.tx b] ++ es2 := by simp
        rw [e]; exact this
      split at h
      · rcases hr2 : sendSucceeded env t1 f o true with _ | ⟨t2, es2, r⟩ <;> rw [hr2] at h <;> cases h
        exact fin true t' es2 (fun _ => ⟨r, hr2⟩) (fun h => by cases h)
      · cases h
        have := fin false (sendFailed t1 f) [] (fun h => by cases h) (fun _ => ⟨rfl, rfl⟩)
        rwa [List.append_nil] at this

/-! ### the chain -/

theorem applyChangeset_chain {t t' : Tracker Keychain D P T} {cs} (h : t.applyChangeset cs = some t') :
    t'.chainGraph = t.chainGraph.applyChangeset cs.chainGraph := by
  unfold Tracker.applyChangeset at h
  cases e1 : t.txoutIndex.applyAdditions cs.derivationIndices with
  | none => rw [e1] at h; cases h
  | some i =>
    rw [e1] at h
    simp only [Option.bind_eq_bind, Option.bind_some] at h
    cases e2 : i.scan cs.chainGraph.graph.txouts with
    | none => rw [e2] at h; cases h
    | some q => rw [e2] at h; cases h; rfl

theorem applyEmpty_chain {g : ChainGraph P T} (hl : SparseChain.Limited g.chain) : g.applyChangeset CGChangeSet.empty = g := by
  show (⟨g.chain.applyChangeset ChangeSet.empty, g.graph.applyAdditions Additions.empty⟩ : ChainGraph P T) = _
  rw [SparseChain.applyChangeset_empty hl]
  rfl

/-- a successful write of `cs`, seen from the chain -/
theorem store_chain {g : ChainGraph P T} (hl : SparseChain.Limited g.chain) (cs : KeychainChangeSet Keychain P T) :
    (diskOf (store cs true).1).foldl (fun g c => g.applyChangeset c.chainGraph) g = g.applyChangeset cs.chainGraph := by
  rcases store_cases cs true with ⟨h, h'⟩ | ⟨-, -, h'⟩ | ⟨-, h, -⟩
  · rw [h']
    rw [KeychainChangeSet.isEmpty_iff] at h
    rw [h]
    exact (applyEmpty_chain hl).symm
  · rw [h']; rfl
  · cases h

/-- the chain and the graph of the program after a command whose writes succeed are those before it with the written changes -/
theorem command_chain {env : Env D Key Ak Sec XPrv Msg T} {t t' : Tracker Keychain D P T} (hl : SparseChain.Limited t.chainGraph.chain)
    {cmd : Command P T} {es} (h : runCommand env t cmd true true = (es, some t')) :
    t'.chainGraph = (diskOf es).foldl (fun g c => g.applyChangeset c.chainGraph) t.chainGraph := by
  unfold runCommand at h
  have addi : ∀ (a : DerivationAdditions Keychain) (g : ChainGraph P T), SparseChain.Limited g.chain →
      (diskOf (store (.ofAdditions a : KeychainChangeSet Keychain P T) true).1).foldl (fun g c => g.applyChangeset c.chainGraph) g = g := by
    intro a g hg
    rw [store_chain hg]
    exact applyEmpty_chain hg
  cases cmd with
  | print => cases h; rfl
  | address c =>
    simp only at h
    rcases hr : runAddressCmd t c true with _ | ⟨t1, es1, r⟩ <;> rw [hr] at h <;> cases h
    rcases address_spec hr with ⟨h1, h2, -⟩ | ⟨q, -, h1, ⟨h2, h3, -⟩ | ⟨-, h3, -⟩⟩ <;> simp only at h1
    · simp only at h2; rw [h1, h2]; rfl
    · simp only at h3
      rw [h1, h3, diskOf_append, List.foldl_append, addi _ _ hl]
      rfl
    · simp only at h3
      rw [h1, h3, addi _ _ hl]
  | syncElectrum scan o =>
    simp only at h
    unfold runSyncElectrum at h
    cases hd : t.determineChangeset scan o with
    | panic => rw [hd] at h; cases h
    | err e => rw [hd] at h; cases h; rfl
    | ok cs =>
      rw [hd] at h
      simp only [Prod.mk.injEq] at h
      obtain ⟨h1, h2⟩ := h
      have hs : (store cs true : List (Event P T) × Bool).2 = true := by
        rcases store_cases cs true with ⟨-, h'⟩ | ⟨-, -, h'⟩ | ⟨-, h', -⟩
        · rw [h']
        · rw [h']
        · cases h'
      rw [if_pos hs] at h2
      rw [← h1, store_chain hl, applyChangeset_chain h2]
  | syncEsplora scan o =>
    simp only at h
    rcases hr : syncEsplora t scan o true with _ | ⟨t1, es1⟩ <;> rw [hr] at h <;> cases h
    unfold syncEsplora Tracker.applyUpdate Tracker.applyOk at hr
    cases hd : t.determineChangeset scan o with
    | panic => rw [hd] at hr; cases hr
    | err e => rw [hd] at hr; cases hr; rfl
    | ok cs =>
      rw [hd] at hr
      simp only at hr
      cases ha : t.applyChangeset cs with
      | none => rw [ha] at hr; cases hr
      | some t2 => rw [ha] at hr; cases hr; rw [store_chain hl, applyChangeset_chain ha]
  | send luck value payee algo sent o =>
    simp only at h
    unfold runSend at h
    rcases hr : sendPrepare env luck t value payee algo true with _ | ⟨t1, es1, e⟩
    · rw [hr] at h; cases h
    obtain ⟨q, -, h3⟩ := prepare_spec hr
    have h1 : t1.chainGraph = t.chainGraph ∧ (diskOf es1).foldl (fun g c => g.applyChangeset c.chainGraph) t.chainGraph = t.chainGraph := by
      rcases h3 with ⟨e1, e2, -⟩ | ⟨-, e1, e2, -⟩ | ⟨-, e1, e2, -⟩ <;> simp only at e1 e2 <;> rw [e1, e2]
      · exact ⟨rfl, rfl⟩
      · exact ⟨rfl, addi _ _ hl⟩
      · exact ⟨rfl, addi _ _ hl⟩
    cases e with
    | error e => rw [hr] at h; cases h; rw [h1.2, h1.1]
    | ok f =>
      rw [hr] at h
      simp only at h
      split at h
      · rcases hr2 : sendSucceeded env t1 f o true with _ | ⟨t2, es2, r⟩ <;> rw [hr2] at h <;> cases h
        rw [diskOf_append, diskOf_append, List.foldl_append, List.foldl_append, h1.2]
        have e : diskOf [(Event.broadcast f.tx true : Event P T)] = [] := rfl
        rw [e, List.foldl_nil]
        obtain ⟨q2, g1, g2, g3⟩ := succeeded_spec hr2
        simp only at g2 g3
        unfold Tracker.insertTx Tracker.applyOk at g1
        cases hd : t1.insertTxPreview (env.toT f.tx) (ChainPosition.maxOrd .unconfirmed) o with
        | panic => rw [hd] at g1; cases g1
        | err er =>
          rw [hd] at g1
          cases g1
          rcases g3 with ⟨-, -, g4, -⟩ | ⟨cs, g4, -⟩
          · rw [g4, g2, h1.1]; rfl
          · cases g4
        | ok cs =>
          rw [hd] at g1
          simp only at g1
          cases ha : t1.applyChangeset cs with
          | none => rw [ha] at g1; cases g1
          | some t3 =>
            rw [ha] at g1
            cases g1
            rcases g3 with ⟨er, g4, -⟩ | ⟨cs', g4, g5, -⟩
            · cases g4
            · cases g4
              rw [g5, store_chain hl, g2, applyChangeset_chain ha, h1.1]
      · cases h
        rw [diskOf_append, List.foldl_append, h1.2]
        have e : diskOf [(Event.broadcast f.tx false : Event P T)] = [] := rfl
        rw [e, List.foldl_nil, ← h1.1]
        unfold sendFailed
        cases f.change <;> rfl

/-! ### what is written can be loaded -/

theorem store_mem {cs c : KeychainChangeSet Keychain P T} {ok : Bool}
    (h : Event.stored c ∈ (store cs ok).1 ∨ Event.storeFailed c ∈ (store cs ok).1) : c = cs := by
  rcases store_cases cs ok with ⟨-, h'⟩ | ⟨-, -, h'⟩ | ⟨-, -, h'⟩ <;> rw [h'] at h <;> simpa using h

theorem revealNext_range {s : KeychainIndex Keychain D} (hr : KeychainIndex.Reachable s) (hd : AllDerivable s) {k : Keychain} {q}
    (h : s.revealNextSpk k = some q) {k' i} (hi : OMap.get q.2.2 k' = some i) : ∃ d, s.keychains.get k' = some d ∧ i ≤ cap d := by
  obtain ⟨n, r', hn, hr', hs, e1, e2, e3⟩ := KeychainIndex.revealNext_spec h
  obtain ⟨d, -, -, hk, -⟩ := KeychainIndex.reveal_main hr' (KeychainIndex.reachable_inv hr hd) hd
  obtain ⟨-, -, -, h4, -⟩ := C34_reveal_next_spk hr hd k q h d hk
  rw [h4] at hi
  split at hi
  · rw [OMap.get_insert] at hi
    split at hi
    · rename_i he
      cases hi
      exact ⟨d, by rw [he]; exact hk, Nat.min_le_right _ _⟩
    · rw [OMap.get_empty] at hi; cases hi
  · rw [OMap.get_empty] at hi; cases hi

theorem nextUnused_range {s : KeychainIndex Keychain D} (hr : KeychainIndex.Reachable s) (hd : AllDerivable s) {k : Keychain} {q}
    (h : s.nextUnusedSpk k = some q) {k' i} (hi : OMap.get q.2.2 k' = some i) : ∃ d, s.keychains.get k' = some d ∧ i ≤ cap d := by
  by_cases hu : ∃ i, RevealedUnused s k i
  · obtain ⟨-, -, -, -, h4⟩ := C37_next_unused_lowest hr hd k q h hu
    rw [h4, OMap.get_empty] at hi
    cases hi
  · exact revealNext_range hr hd (C37_next_unused_reveals k q h hu) hi

theorem determine_range {t : Tracker Keychain D P T} {scan o cs} (h : t.determineChangeset scan o = .ok cs) {k i}
    (hi : cs.derivationIndices.get k = some i) : scan.lastActiveIndices.get k = some i := by
  unfold Tracker.determineChangeset at h
  cases hd : t.chainGraph.determineChangeset scan.update o with
  | panic => rw [hd] at h; cases h
  | err e => rw [hd] at h; cases h
  | ok c =>
    rw [hd] at h
    cases h
    simp only [Tracker.newIndices] at hi
    rw [OMap.get_filter] at hi
    rw [Option.filter_eq_some_iff] at hi
    exact hi.1

/-- the changesets a command writes have only indices of the wallet's keychains that can be derived -/
theorem command_range {env : Env D Key Ak Sec XPrv Msg T} {t : Tracker Keychain D P T} (hr : KeychainIndex.Reachable t.txoutIndex)
    (hd : AllDerivable t.txoutIndex) {ext : D} {int : Option D}
    (hk : ∀ k d, t.txoutIndex.keychains.get k = some d ↔ (k = .external ∧ d = ext ∨ k = .internal ∧ int = some d))
    (cmd : Command P T) (ok1 ok2 : Bool) (hs : ScanInRange ext int cmd) (c : KeychainChangeSet Keychain P T)
    (hc : Event.stored c ∈ (runCommand env t cmd ok1 ok2).1 ∨ Event.storeFailed c ∈ (runCommand env t cmd ok1 ok2).1) :
    InRange ext int c := by
  have none_ : ¬ (Event.stored c ∈ ([] : List (Event P T)) ∨ Event.storeFailed c ∈ ([] : List (Event P T))) := by simp
  unfold runCommand at hc
  intro k i hi
  cases cmd with
  | print => exact absurd hc none_
  | address cm =>
    simp only at hc
    rcases hr2 : runAddressCmd t cm ok1 with _ | ⟨t1, es1, r⟩ <;> rw [hr2] at hc
    · exact absurd hc none_
    simp only at hc
    rcases address_spec hr2 with ⟨-, h2, -⟩ | ⟨q, h1, -, h3⟩
    · simp only at h2; rw [h2] at hc; exact absurd hc none_
    · have hce : c = .ofAdditions q.2.2 := by
        rcases h3 with ⟨-, h3, -⟩ | ⟨-, h3, -⟩ <;> simp only at h3 <;> rw [h3] at hc
        · refine store_mem (ok := ok1) ?_
          simpa using hc
        · exact store_mem hc
      subst hce
      have : ∃ d, t.txoutIndex.keychains.get k = some d ∧ i ≤ cap d := by
        rcases h1 with ⟨-, h1⟩ | ⟨-, h1⟩
        · exact nextUnused_range hr hd h1 hi
        · exact revealNext_range hr hd h1 hi
      obtain ⟨d, h4, h5⟩ := this
      exact ⟨d, (hk k d).1 h4, h5⟩
  | syncElectrum scan o =>
    simp only at hc
    unfold runSyncElectrum at hc
    cases hd2 : t.determineChangeset scan o with
    | panic => rw [hd2] at hc; exact absurd hc none_
    | err e => rw [hd2] at hc; exact absurd hc none_
    | ok cs =>
      rw [hd2] at hc
      have := store_mem hc
      subst this
      exact hs k i (determine_range hd2 hi)
  | syncEsplora scan o =>
    simp only at hc
    rcases hr2 : syncEsplora t scan o ok1 with _ | ⟨t1, es1⟩ <;> rw [hr2] at hc
    · exact absurd hc none_
    simp only at hc
    unfold syncEsplora Tracker.applyUpdate Tracker.applyOk at hr2
    cases hd2 : t.determineChangeset scan o with
    | panic => rw [hd2] at hr2; cases hr2
    | err e => rw [hd2] at hr2; cases hr2; exact absurd hc none_
    | ok cs =>
      rw [hd2] at hr2
      simp only at hr2
      cases ha : t.applyChangeset cs with
      | none => rw [ha] at hr2; cases hr2
      | some t2 =>
        rw [ha] at hr2
        cases hr2
        have := store_mem hc
        subst this
        exact hs k i (determine_range hd2 hi)
  | send luck value payee algo sent o =>
    simp only at hc
    unfold runSend at hc
    rcases hr2 : sendPrepare env luck t value payee algo ok1 with _ | ⟨t1, es1, e⟩ <;> rw [hr2] at hc
    · exact absurd hc none_
    obtain ⟨q, hq, h3⟩ := prepare_spec hr2
    have first : (Event.stored c ∈ es1 ∨ Event.storeFailed c ∈ es1) → c = .ofAdditions q.2.2 := by
      intro hc
      rcases h3 with ⟨-, h3, -⟩ | ⟨-, -, h3, -⟩ | ⟨-, -, h3, -⟩ <;> simp only at h3 <;> rw [h3] at hc
      · exact absurd hc none_
      · exact store_mem hc
      · exact store_mem hc
    have fin1 : c = .ofAdditions q.2.2 → ∃ d, (k = Keychain.external ∧ d = ext ∨ k = Keychain.internal ∧ int = some d) ∧ i ≤ cap d := by
      rintro rfl
      obtain ⟨d, h4, h5⟩ := nextUnused_range hr hd hq hi
      exact ⟨d, (hk k d).1 h4, h5⟩
    cases e with
    | error e => exact fin1 (first hc)
    | ok f =>
      simp only at hc
      split at hc
      · rcases hr3 : sendSucceeded env t1 f o ok2 with _ | ⟨t2, es2, r⟩ <;> rw [hr3] at hc
        · exact fin1 (first (by simpa using hc))
        · have : (Event.stored c ∈ es1 ∨ Event.storeFailed c ∈ es1) ∨ (Event.stored c ∈ es2 ∨ Event.storeFailed c ∈ es2) := by
            simp only [List.mem_append, List.mem_singleton, reduceCtorEq, or_false] at hc
            tauto
          rcases this with hc | hc
          · exact fin1 (first hc)
          · obtain ⟨q2, g1, g2, g3⟩ := succeeded_spec hr3
            simp only at g3
            rcases g3 with ⟨er, -, g4, -⟩ | ⟨cs, g4, g5, -⟩
            · rw [g4] at hc; exact absurd hc none_
            · rw [g5] at hc
              have := store_mem hc
              subst this
              unfold Tracker.insertTx Tracker.applyOk Tracker.insertTxPreview at g1
              cases hp : t1.chainGraph.insertTxPreview (env.toT f.tx) (ChainPosition.maxOrd .unconfirmed) o with
              | panic => rw [hp] at g1; cases g1
              | err er => rw [hp] at g1; cases g1; cases g4
              | ok c' =>
                rw [hp] at g1
                simp only at g1
                cases ha : t1.applyChangeset (.ofChainGraph c') with
                | none => rw [ha] at g1; cases g1
                | some t3 =>
                  rw [ha] at g1
                  cases g1
                  cases g4
                  cases hi
      · exact fin1 (first (by simpa using hc))

theorem store_true_not_failed (cs : KeychainChangeSet Keychain P T) (c) : Event.storeFailed c ∉ (store cs true).1 := by
  unfold store; split <;> simp

/-- no write fails if the database says so -/
theorem command_not_failed (env : Env D Key Ak Sec XPrv Msg T) (t : Tracker Keychain D P T) (cmd : Command P T) (c) :
    Event.storeFailed c ∉ (runCommand env t cmd true true).1 := by
  unfold runCommand
  cases cmd with
  | print => simp
  | address cm =>
    simp only
    rcases hr : runAddressCmd t cm true with _ | ⟨t', es, r⟩
    · simp
    · rcases address_spec hr with ⟨-, h, -⟩ | ⟨q, -, -, ⟨h, h', -⟩ | ⟨-, h, -⟩⟩
      · simp only at h ⊢; rw [h]; simp
      · simp only at h' ⊢; rw [h']
        simp [store_true_not_failed]
      · simp only at h ⊢; rw [h]; exact store_true_not_failed _ _
  | send luck value payee algo sent o =>
    simp only
    unfold runSend
    rcases hr : sendPrepare env luck t value payee algo true with _ | ⟨t1, es, e⟩
    · simp
    · obtain ⟨q, -, h⟩ := prepare_spec hr
      have hs : Event.storeFailed c ∉ es := by
        rcases h with ⟨-, h, -⟩ | ⟨-, -, h, -⟩ | ⟨-, -, h, h'⟩ <;> simp only at h <;> rw [h]
        · simp
        · exact store_true_not_failed _ _
        · exact store_true_not_failed _ _
      cases e with
      | error e => exact hs
      | ok f =>
        simp only
        split
        · rcases hr2 : sendSucceeded env t1 f o true with _ | ⟨t2, es2, r⟩
          · simp [hs]
          · obtain ⟨q2, -, -, ⟨e, -, h4, -⟩ | ⟨cs, -, h4, -⟩⟩ := succeeded_spec hr2 <;> simp only at h4 ⊢ <;> rw [h4]
            · simp [hs]
            · simp [hs, store_true_not_failed]
        · simp [hs]
  | syncElectrum scan o =>
    simp only
    unfold runSyncElectrum
    cases t.determineChangeset scan o with
    | panic => simp
    | err e => simp
    | ok cs => exact store_true_not_failed _ _
  | syncEsplora scan o =>
    simp only
    rcases hr : syncEsplora t scan o true with _ | ⟨t', es⟩
    · simp
    · simp only
      unfold syncEsplora at hr
      rcases hd : t.applyUpdate scan o with _ | ⟨t', e | cs⟩ <;> rw [hd] at hr <;> cases hr
      · simp
      · exact store_true_not_failed _ _

end Verif.Cli
