import Verif.Props.Tracker
import Verif.Props.FileStore
import Verif.Spec.Cli

/-!
# Lemmas about the commands of bdk_cli_lib
-/

set_option linter.unusedSectionVars false

namespace Verif.Cli
open Verif Verif.CoinSelect Verif.Planner Verif.Spec Verif.Props

variable {D Key Ak Sec XPrv Msg T P : Type} [DescriptorOps D] [DecidableEq D] [LinearOrder P] [ChainPosition P] [LinearOrder T]
  [AsTransaction T] [DecidableEq Key]

theorem assemble_spec {env : Env D Key Ak Sec XPrv Msg T} {luck : Luck} {t : Tracker Keychain D P T}
    {cands : List (Candidate Key Ak P)} {payment change : TxOut} {info} {sel : Selection} {c : Created T}
    (h : assemble env luck t cands payment change info sel = some (.ok c)) :
    ∃ nb selected ins, Selection.bestStrategy (luck.strategies.perm sel.strategies) = some nb ∧
      applySelection sel.selected cands = some selected ∧
      signInputs env ⟨2, lockTimeOf t, selected.map unsignedInput,
        match nb.2.drainValue with | some v => [payment, { change with value := v }] | none => [payment]⟩
        (selected.map fun c => c.2.txout) 0 selected = some (.ok ins) ∧
      c.tx = ⟨2, lockTimeOf t, ins,
        match nb.2.drainValue with | some v => [payment, { change with value := v }] | none => [payment]⟩ ∧
      c.change = if nb.2.drainValue.isSome then some info else none := by
  unfold assemble at h
  cases hb : Selection.bestStrategy (luck.strategies.perm sel.strategies) with
  | none => rw [hb] at h; cases h
  | some nb =>
    rw [hb] at h
    simp only [Option.bind_eq_bind, Option.bind_some] at h
    cases hs : applySelection sel.selected cands with
    | none => rw [hs] at h; cases h
    | some selected =>
      rw [hs] at h
      simp only [Option.bind_some] at h
      revert h
      generalize hq : signInputs env _ _ 0 selected = q
      cases q with
      | none => intro h; cases h
      | some r =>
        cases r with
        | error e => intro h; cases h
        | ok ins =>
          intro h
          simp only [Option.bind_some, Option.pure_def, Option.some.injEq, Except.ok.injEq] at h
          subst h
          exact ⟨nb, selected, ins, rfl, rfl, hq, rfl, rfl⟩

theorem createTx_spec {env : Env D Key Ak Sec XPrv Msg T} {luck : Luck} {t : Tracker Keychain D P T} {value : Nat} {payee : Script}
    {algo : Algo} {r} (h : createTx env luck t value payee algo = some r) :
    ∃ q, t.txoutIndex.nextUnusedSpk (internalKeychain t) = some q ∧ r.1 = { t with txoutIndex := q.1 } ∧
      ∀ c, r.2 = .ok c →
        (c.change = none ∧ c.tx.output = [⟨value, payee⟩]) ∨
        (c.change = some (q.2.2, (internalKeychain t, q.2.1.1)) ∧ ∃ v, c.tx.output = [⟨value, payee⟩, ⟨v, q.2.1.2⟩]) := by
  unfold createTx at h
  cases h1 : plannedUtxos env t (t.fullUtxos luck.spend) with
  | none => rw [h1] at h; cases h
  | some planned =>
  rw [h1] at h
  simp only [Option.bind_eq_bind, Option.bind_some] at h
  cases h2 : (sortCandidates algo planned).mapM (weighted env) with
  | none => rw [h2] at h; cases h
  | some wv =>
  rw [h2] at h
  simp only [Option.bind_some] at h
  cases h3 : t.txoutIndex.nextUnusedSpk (internalKeychain t) with
  | none => rw [h3] at h; cases h
  | some q =>
  obtain ⟨index, ⟨ci, cs⟩, additions⟩ := q
  rw [h3] at h
  simp only [Option.bind_some] at h
  cases h4 : index.keychains.get (internalKeychain t) with
  | none => rw [h4] at h; cases h
  | some d =>
  rw [h4] at h
  simp only [Option.bind_some] at h
  refine ⟨_, rfl, ?_⟩
  cases h5 : env.plan d ci with
  | panic => rw [h5] at h; cases h
  | ret o =>
  rw [h5] at h
  cases o with
  | none => cases h
  | some plan =>
  simp only at h
  cases h6 : plan.expectedWeight env.lib with
  | panic => rw [h6] at h; cases h
  | ret cw =>
  rw [h6] at h
  simp only at h
  revert h
  generalize runSelection algo luck _ = rs
  intro h
  cases rs with
  | none => cases h
  | some rr =>
  simp only [Option.bind_some] at h
  cases rr with
  | error e =>
    simp only [Option.pure_def, Option.some.injEq] at h
    subst h
    exact ⟨rfl, fun c hc => by cases hc⟩
  | ok sel =>
  simp only at h
  revert h
  generalize ha : assemble (P := P) (D := D) env luck _ _ _ _ _ sel = ar
  intro h
  cases ar with
  | none => cases h
  | some res =>
  simp only [Option.bind_some, Option.pure_def, Option.some.injEq] at h
  subst h
  refine ⟨rfl, fun c hc => ?_⟩
  simp only at hc
  subst hc
  obtain ⟨nb, selected, ins, -, -, -, e1, e2⟩ := assemble_spec ha
  rw [e1, e2]
  cases nb.2.drainValue with
  | none => exact .inl ⟨rfl, rfl⟩
  | some v => exact .inr ⟨rfl, v, rfl⟩

theorem diskOf_append (a b : List (Event P T)) : diskOf (a ++ b) = diskOf a ++ diskOf b := List.filterMap_append ..

theorem store_cases (cs : KeychainChangeSet Keychain P T) (ok : Bool) :
    (cs.isEmpty = true ∧ store cs ok = ([], true)) ∨
    (cs.isEmpty = false ∧ ok = true ∧ store cs ok = ([.stored cs], true)) ∨
    (cs.isEmpty = false ∧ ok = false ∧ store cs ok = ([.storeFailed cs], false)) := by
  unfold store
  cases cs.isEmpty <;> cases ok <;> simp

theorem runFrom_one {t : Tracker Keychain D P T} {op : Tracker.Op Keychain P T} {r} (h : t.step op = some r) :
    t.runFrom [op] = some (r.1, r.2.toList) := by
  unfold Tracker.runFrom Tracker.runFrom
  rw [h]
  simp

theorem runFrom_two {t : Tracker Keychain D P T} {op op' : Tracker.Op Keychain P T} {r r'} (h : t.step op = some r)
    (h' : r.1.step op' = some r') :
    t.runFrom [op, op'] = some (r'.1, r.2.toList ++ r'.2.toList) := by
  unfold Tracker.runFrom
  rw [h]
  simp only [Option.bind_eq_bind, Option.bind_some]
  rw [runFrom_one h']
  rfl

theorem nonEmpty_one (cs : KeychainChangeSet Keychain P T) : nonEmpty [cs] = if cs.isEmpty then [] else [cs] := by
  unfold nonEmpty
  cases h : cs.isEmpty <;> simp [h]

/-- `next_unused_spk` and `reveal_next_spk` as calls on the tracker -/
theorem next_step {t : Tracker Keychain D P T} {k : Keychain} {q} (h : t.txoutIndex.nextUnusedSpk k = some q) :
    t.step (.nextUnusedSpk k) = some ({ t with txoutIndex := q.1 }, some (.ofAdditions q.2.2)) := by
  simp only [Tracker.step, Tracker.viaIndex, h, Option.map_some]

theorem reveal_step {t : Tracker Keychain D P T} {k : Keychain} {q} (h : t.txoutIndex.revealNextSpk k = some q) :
    t.step (.revealNextSpk k) = some ({ t with txoutIndex := q.1 }, some (.ofAdditions q.2.2)) := by
  simp only [Tracker.step, Tracker.viaIndex, h, Option.map_some]

theorem mark_step (t : Tracker Keychain D P T) (k : Keychain) (i : Nat) :
    t.step (.markUsed k i) = some ({ t with txoutIndex := (t.txoutIndex.markUsed k i).1 }, some .empty) := rfl

theorem unmark_step (t : Tracker Keychain D P T) (k : Keychain) (i : Nat) :
    t.step (.unmarkUsed k i) = some ({ t with txoutIndex := (t.txoutIndex.unmarkUsed k i).1 }, some .empty) := rfl

/-- the three ways `address` can end -/
theorem address_spec {t : Tracker Keychain D P T} {cmd : AddressCmd} {ok : Bool} {r}
    (h : runAddressCmd t cmd ok = some r) :
    (r.1 = t ∧ r.2.1 = [] ∧ (cmd = .list ∨ cmd = .index)) ∨
    ∃ q : KeychainIndex Keychain D × (Nat × Script) × DerivationAdditions Keychain,
      (cmd = .next ∧ t.txoutIndex.nextUnusedSpk .external = some q ∨ cmd = .new ∧ t.txoutIndex.revealNextSpk .external = some q) ∧
      r.1 = { t with txoutIndex := q.1 } ∧
      ((store (.ofAdditions q.2.2 : KeychainChangeSet Keychain P T) ok).2 = true ∧
          r.2.1 = (store (.ofAdditions q.2.2) ok).1 ++ [.shown .external q.2.1.1 q.2.1.2] ∧ r.2.2 = .ok () ∨
        (store (.ofAdditions q.2.2 : KeychainChangeSet Keychain P T) ok).2 = false ∧
          r.2.1 = (store (.ofAdditions q.2.2) ok).1 ∧ r.2.2 = .error .persist) := by
  unfold runAddressCmd at h
  have key : ∀ q : KeychainIndex Keychain D × (Nat × Script) × DerivationAdditions Keychain, addressSpk t cmd = some (some q) →
      r.1 = { t with txoutIndex := q.1 } ∧
      ((store (.ofAdditions q.2.2 : KeychainChangeSet Keychain P T) ok).2 = true ∧
          r.2.1 = (store (.ofAdditions q.2.2) ok).1 ++ [.shown .external q.2.1.1 q.2.1.2] ∧ r.2.2 = .ok () ∨
        (store (.ofAdditions q.2.2 : KeychainChangeSet Keychain P T) ok).2 = false ∧
          r.2.1 = (store (.ofAdditions q.2.2) ok).1 ∧ r.2.2 = .error .persist) := by
    intro q hq
    obtain ⟨i, ⟨n, spk⟩, a⟩ := q
    rw [hq] at h
    simp only at h ⊢
    cases hs : (store (.ofAdditions a : KeychainChangeSet Keychain P T) ok).2 with
    | true =>
      rw [hs, if_pos rfl] at h
      cases h
      exact ⟨rfl, .inl ⟨rfl, rfl, rfl⟩⟩
    | false =>
      rw [hs, if_neg (by decide)] at h
      cases h
      exact ⟨rfl, .inr ⟨rfl, rfl, rfl⟩⟩
  cases cmd with
  | list => cases h; exact .inl ⟨rfl, rfl, .inl rfl⟩
  | index => cases h; exact .inl ⟨rfl, rfl, .inr rfl⟩
  | next =>
    cases hq : t.txoutIndex.nextUnusedSpk .external with
    | none => simp only [addressSpk, hq, Option.map_none] at h; cases h
    | some q => exact .inr ⟨q, .inl ⟨rfl, rfl⟩, key q (by simp only [addressSpk, hq, Option.map_some])⟩
  | new =>
    cases hq : t.txoutIndex.revealNextSpk .external with
    | none => simp only [addressSpk, hq, Option.map_none] at h; cases h
    | some q => exact .inr ⟨q, .inr ⟨rfl, rfl⟩, key q (by simp only [addressSpk, hq, Option.map_some])⟩

/-- the ways the first half of `Send` can end -/
theorem prepare_spec {env : Env D Key Ak Sec XPrv Msg T} {luck : Luck} {t : Tracker Keychain D P T} {value : Nat} {payee : Script}
    {algo : Algo} {ok : Bool} {r} (h : sendPrepare env luck t value payee algo ok = some r) :
    ∃ q, t.txoutIndex.nextUnusedSpk (internalKeychain t) = some q ∧
      ((r.1 = { t with txoutIndex := q.1 } ∧ r.2.1 = [] ∧
          ((∃ e, r.2.2 = .error e) ∨ ∃ f, r.2.2 = .ok f ∧ f.change = none ∧ f.tx.output = [⟨value, payee⟩])) ∨
       ((store (.ofAdditions q.2.2 : KeychainChangeSet Keychain P T) ok).2 = true ∧
          r.1 = { t with txoutIndex := (q.1.markUsed (internalKeychain t) q.2.1.1).1 } ∧
          r.2.1 = (store (.ofAdditions q.2.2) ok).1 ∧
          ∃ f, r.2.2 = .ok f ∧ f.change = some (internalKeychain t, q.2.1.1) ∧
            ∃ v, f.tx.output = [⟨value, payee⟩, ⟨v, q.2.1.2⟩]) ∨
       ((store (.ofAdditions q.2.2 : KeychainChangeSet Keychain P T) ok).2 = false ∧
          r.1 = { t with txoutIndex := q.1 } ∧ r.2.1 = (store (.ofAdditions q.2.2) ok).1 ∧ r.2.2 = .error .persist)) := by
  unfold sendPrepare at h
  rcases hc : createTx env luck t value payee algo with _ | ⟨t', e | c⟩
  · rw [hc] at h; cases h
  · rw [hc] at h
    cases h
    obtain ⟨q, h1, h2, -⟩ := createTx_spec hc
    exact ⟨q, h1, .inl ⟨h2, rfl, .inl ⟨e, rfl⟩⟩⟩
  · rw [hc] at h
    simp only at h
    obtain ⟨q, h1, h2, h3⟩ := createTx_spec hc
    refine ⟨q, h1, ?_⟩
    simp only at h2
    rcases h3 c rfl with ⟨e1, e2⟩ | ⟨e1, e2⟩
    · rw [e1] at h
      cases h
      exact .inl ⟨h2, rfl, .inr ⟨_, rfl, rfl, e2⟩⟩
    · rw [e1] at h
      simp only at h
      cases hs : (store (.ofAdditions q.2.2 : KeychainChangeSet Keychain P T) ok).2 with
      | true =>
        rw [hs, if_pos rfl] at h
        cases h
        subst h2
        exact .inr (.inl ⟨rfl, rfl, rfl, _, rfl, rfl, e2⟩)
      | false =>
        rw [hs, if_neg (by decide)] at h
        cases h
        exact .inr (.inr ⟨rfl, h2, rfl, rfl⟩)

/-- the second half of `Send` after a successful broadcast -/
theorem succeeded_spec {env : Env D Key Ak Sec XPrv Msg T} {t : Tracker Keychain D P T} {f : InFlight} {o : Orders P T} {ok : Bool} {r}
    (h : sendSucceeded env t f o ok = some r) :
    ∃ q, t.insertTx (env.toT f.tx) (ChainPosition.maxOrd .unconfirmed) o = some q ∧ r.1 = q.1 ∧
      ((∃ e, q.2 = .error e ∧ r.2.1 = [] ∧ ∃ e', r.2.2 = .error e') ∨
        ∃ cs, q.2 = .ok cs ∧ r.2.1 = (store cs ok).1 ∧ r.2.2 = if (store cs ok).2 then .ok () else .error .persist) := by
  unfold sendSucceeded at h
  cases hq : t.insertTx (env.toT f.tx) (ChainPosition.maxOrd .unconfirmed) o with
  | none => rw [hq] at h; cases h
  | some q =>
    obtain ⟨t', e | cs⟩ := q
    · rw [hq] at h
      cases e with
      | chain e =>
        cases e with
        | txTooHigh => cases h
        | txMovedUnexpectedly => cases h; exact ⟨_, rfl, rfl, .inl ⟨_, rfl, rfl, _, rfl⟩⟩
      | unresolvableConflict e => cases h; exact ⟨_, rfl, rfl, .inl ⟨_, rfl, rfl, _, rfl⟩⟩
    · rw [hq] at h
      cases h
      exact ⟨_, rfl, rfl, .inr ⟨cs, rfl, rfl, rfl⟩⟩

theorem insertTx_step {t : Tracker Keychain D P T} {x : T} {p : P} {o : Orders P T} {q} (h : t.insertTx x p o = some q) :
    t.step (.insertTx x p o) = some (Tracker.logged q) := by
  simp only [Tracker.step, h, Option.map_some]

theorem applyUpdate_step {t : Tracker Keychain D P T} {scan : KeychainScan Keychain P T} {o : Orders P T} {q}
    (h : t.applyUpdate scan o = some q) : t.step (.applyUpdate scan o) = some (Tracker.logged q) := by
  simp only [Tracker.step, h, Option.map_some]

theorem disk_store (tr : List (Event P T)) (cs : KeychainChangeSet Keychain P T) (ok : Bool) (es : List (Event P T))
    (hes : diskOf es = []) :
    diskOf (tr ++ ((store cs ok).1 ++ es)) = diskOf tr ++ nonEmpty [cs] ∨
      (diskOf (tr ++ ((store cs ok).1 ++ es)) = diskOf tr ∧ ok = false ∧ (store cs ok).2 = false) := by
  rw [diskOf_append, diskOf_append, hes, nonEmpty_one]
  rcases store_cases cs ok with ⟨h1, h2⟩ | ⟨h1, h2, h3⟩ | ⟨h1, h2, h3⟩
  · left; rw [h2, h1]; rfl
  · left; rw [h3, h1]; rfl
  · right; rw [h3]; exact ⟨by simp [diskOf], h2, rfl⟩

/-- the only call of `unmark_used` is the one for the change of a failed broadcast -/
def UnmarksOnlyFailed (w : World D P T) (a : Act P T) (ops : List (Tracker.Op Keychain P T)) : Prop :=
  ∀ k i, Tracker.Op.unmarkUsed k i ∈ ops →
    ∃ n o ok f, a = .sendFinish n o ok ∧ w.jobs[n]? = some ⟨f, some false⟩ ∧ f.change = some (k, i)

/-- every action is a few calls on the tracker, and what is written are the changesets they report, unless `MayLose` -/
theorem step_ops {env : Env D Key Ak Sec XPrv Msg T} {base : Tracker Keychain D P T} {w w' : World D P T} {a : Act P T}
    (hc : ¬ Crashes a) (h : step env base w a = some w') :
    ∃ ops log, UnmarksOnlyFailed w a ops ∧ w.tracker.runFrom ops = some (w'.tracker, log) ∧
      (diskOf w'.trace = diskOf w.trace ++ nonEmpty log ∨ (diskOf w'.trace = diskOf w.trace ∧ MayLose w w' a)) := by
  have nothing : ∀ w' : World D P T, w'.tracker = w.tracker → diskOf w'.trace = diskOf w.trace → ∃ ops log,
      UnmarksOnlyFailed w a ops ∧ w.tracker.runFrom ops = some (w'.tracker, log) ∧
      (diskOf w'.trace = diskOf w.trace ++ nonEmpty log ∨ (diskOf w'.trace = diskOf w.trace ∧ MayLose w w' a)) := by
    intro w' h1 h2
    exact ⟨[], [], (fun k i h => by cases h), by rw [h1]; rfl, .inl (by rw [h2]; simp [nonEmpty])⟩
  have memp : (KeychainChangeSet.empty : KeychainChangeSet Keychain P T).isEmpty = true := rfl
  cases a with
  | restart => exact absurd trivial hc
  | crashIn => exact absurd trivial hc
  | address cmd ok =>
    simp only [step] at h
    rcases hr : runAddressCmd w.tracker cmd ok with _ | ⟨t, es, res⟩
    · rw [hr] at h; cases h
    rw [hr] at h
    cases h
    rcases address_spec hr with ⟨h1, h2, -⟩ | ⟨q, h1, h2, h3⟩
    · refine nothing _ h1 ?_
      simp only at h2; rw [h2]; simp
    · have hst : ∃ op, (∀ k i, Tracker.Op.unmarkUsed k i ≠ op) ∧ w.tracker.step op = some ({ w.tracker with txoutIndex := q.1 }, some (.ofAdditions q.2.2)) := by
        rcases h1 with ⟨-, h1⟩ | ⟨-, h1⟩
        · exact ⟨_, (fun _ _ h => by cases h), next_step h1⟩
        · exact ⟨_, (fun _ _ h => by cases h), reveal_step h1⟩
      obtain ⟨op, hop, hst⟩ := hst
      simp only at h2 h3
      subst h2
      refine ⟨[op], _, (fun k i h => absurd (List.mem_singleton.mp h) (hop k i)), runFrom_one hst, ?_⟩
      rcases h3 with ⟨e1, e2, -⟩ | ⟨e1, e2, -⟩
      · subst e2
        rcases disk_store w.trace (.ofAdditions q.2.2) ok [.shown .external q.2.1.1 q.2.1.2] rfl with hd | ⟨-, -, hd⟩
        · exact .inl hd
        · rw [e1] at hd; cases hd
      · subst e2
        rcases disk_store w.trace (.ofAdditions q.2.2) ok [] rfl with hd | ⟨hd, h4, -⟩
        · rw [List.append_nil] at hd; exact .inl hd
        · rw [List.append_nil] at hd; exact .inr ⟨hd, h4⟩
  | sendPrepare luck value payee algo ok =>
    simp only [step] at h
    rcases hr : sendPrepare env luck w.tracker value payee algo ok with _ | ⟨t, es, e | f⟩
    · rw [hr] at h; cases h
    · rw [hr] at h
      cases h
      obtain ⟨q, h1, h2⟩ := prepare_spec hr
      rcases h2 with ⟨e1, e2, e3⟩ | ⟨e0, e1, e2, f, e3, -⟩ | ⟨e0, e1, e2, -⟩
      · simp only at e1 e2
        subst e1 e2
        refine ⟨[.nextUnusedSpk _], _, (fun k i h => by simp at h), runFrom_one (next_step h1), .inr ⟨by simp, .inr ?_⟩⟩
        rintro ⟨f, hf, -⟩
        have := congrArg List.length hf
        simp at this
      · cases e3
      · simp only at e1 e2
        subst e1 e2
        refine ⟨[.nextUnusedSpk _], _, (fun k i h => by simp at h), runFrom_one (next_step h1), ?_⟩
        rcases disk_store w.trace (.ofAdditions q.2.2) ok [] rfl with hd | ⟨hd, h4, -⟩
        · rw [List.append_nil] at hd; exact .inl hd
        · rw [List.append_nil] at hd; exact .inr ⟨hd, .inl h4⟩
    · rw [hr] at h
      cases h
      obtain ⟨q, h1, h2⟩ := prepare_spec hr
      rcases h2 with ⟨e1, e2, e3⟩ | ⟨e0, e1, e2, f', e3, e4, -⟩ | ⟨e0, e1, e2, e3⟩
      · simp only at e1 e2
        subst e1 e2
        refine ⟨[.nextUnusedSpk _], _, (fun k i h => by simp at h), runFrom_one (next_step h1), .inr ⟨by simp, .inr ?_⟩⟩
        rintro ⟨f', hf, hn⟩
        rcases e3 with ⟨e, he⟩ | ⟨f'', he, hno, -⟩
        · cases he
        · simp only [Except.ok.injEq] at he
          subst he
          simp only [List.append_cancel_left_eq, List.cons.injEq, Job.mk.injEq, and_true] at hf
          subst hf
          rw [hno] at hn; cases hn
      · simp only at e1 e2
        subst e1 e2
        refine ⟨[.nextUnusedSpk _, .markUsed _ _], _, (fun k i h => by simp at h), runFrom_two (next_step h1) (mark_step _ _ _), ?_⟩
        have hl : nonEmpty ((some (KeychainChangeSet.ofAdditions q.2.2 : KeychainChangeSet Keychain P T)).toList ++
            (some (KeychainChangeSet.empty : KeychainChangeSet Keychain P T)).toList) = nonEmpty [.ofAdditions q.2.2] := by
          simp [nonEmpty, List.filter_cons, memp]
        rw [hl]
        rcases disk_store w.trace (.ofAdditions q.2.2) ok [] rfl with hd | ⟨-, -, hd⟩
        · rw [List.append_nil] at hd; exact .inl hd
        · rw [e0] at hd; cases hd
      · cases e3
  | broadcast n ok =>
    simp only [step] at h
    split at h
    · cases h
      refine nothing _ rfl ?_
      rw [diskOf_append]; simp [diskOf]
    · cases h; exact nothing _ rfl rfl
  | sendFinish n o ok =>
    simp only [step] at h
    split at h
    · rename_i f _
      rcases hr : sendSucceeded env w.tracker f o ok with _ | ⟨t, es, res⟩
      · rw [hr] at h; cases h
      rw [hr] at h
      cases h
      obtain ⟨q, h1, h2, h3⟩ := succeeded_spec hr
      simp only at h2 h3
      subst h2
      refine ⟨[.insertTx _ _ _], _, (fun k i h => by simp at h), runFrom_one (insertTx_step h1), ?_⟩
      rcases h3 with ⟨e, he, h4, -⟩ | ⟨cs, he, h4, -⟩
      · subst h4
        left
        simp [Tracker.logged, he, nonEmpty]
      · subst h4
        have : (Tracker.logged q).2.toList = [cs] := by simp [Tracker.logged, he]
        rw [this]
        rcases disk_store w.trace cs ok [] rfl with hd | ⟨hd, h4, -⟩
        · rw [List.append_nil] at hd; exact .inl hd
        · rw [List.append_nil] at hd; exact .inr ⟨hd, h4⟩
    · rename_i f _
      rename_i hn
      cases h
      unfold sendFailed
      cases hf : f.change with
      | none => exact nothing _ rfl rfl
      | some ki => exact ⟨[.unmarkUsed ki.1 ki.2], _, (fun k i h => by
          simp only [List.mem_singleton, Tracker.Op.unmarkUsed.injEq] at h
          exact ⟨n, o, ok, f, rfl, hn, by rw [hf, h.1, h.2]⟩), runFrom_one (unmark_step _ ki.1 ki.2), .inl (by simp [nonEmpty, memp])⟩
    · cases h; exact nothing _ rfl rfl
  | syncElectrum scan o ok =>
    simp only [step] at h
    rcases hr : syncElectrum w.tracker scan o ok with _ | ⟨t, es⟩
    · rw [hr] at h; cases h
    rw [hr] at h
    cases h
    unfold syncElectrum at hr
    cases hd : w.tracker.determineChangeset scan o with
    | panic => rw [hd] at hr; cases hr
    | err e => rw [hd] at hr; cases hr; exact nothing _ rfl (by simp)
    | ok cs =>
      rw [hd] at hr
      simp only at hr
      rcases store_cases cs ok with ⟨e1, e2⟩ | ⟨e1, e2, e3⟩ | ⟨e1, e2, e3⟩
      · rw [e2] at hr
        simp only [if_true] at hr
        cases ha : w.tracker.applyChangeset cs with
        | none => rw [ha] at hr; cases hr
        | some t' =>
          rw [ha] at hr
          cases hr
          refine ⟨[.applyUpdate scan o], _, (fun k i h => by simp at h), runFrom_one (applyUpdate_step (q := (t, .ok cs)) ?_), .inl ?_⟩
          · unfold Tracker.applyUpdate Tracker.applyOk
            rw [hd]; simp [ha]
          · simp [Tracker.logged, nonEmpty, e1]
      · rw [e3] at hr
        simp only [if_true] at hr
        cases ha : w.tracker.applyChangeset cs with
        | none => rw [ha] at hr; cases hr
        | some t' =>
          rw [ha] at hr
          cases hr
          refine ⟨[.applyUpdate scan o], _, (fun k i h => by simp at h), runFrom_one (applyUpdate_step (q := (t, .ok cs)) ?_), .inl ?_⟩
          · unfold Tracker.applyUpdate Tracker.applyOk
            rw [hd]; simp [ha]
          · rw [diskOf_append]
            simp [Tracker.logged, nonEmpty, e1, diskOf]
      · rw [e3] at hr
        simp only [Bool.false_eq_true, if_false] at hr
        cases hr
        refine nothing _ rfl ?_
        rw [diskOf_append]; simp [diskOf]
  | syncEsplora scan o ok =>
    simp only [step] at h
    rcases hr : syncEsplora w.tracker scan o ok with _ | ⟨t, es⟩
    · rw [hr] at h; cases h
    rw [hr] at h
    cases h
    unfold syncEsplora at hr
    rcases hd : w.tracker.applyUpdate scan o with _ | ⟨t', e | cs⟩
    · rw [hd] at hr; cases hr
    · rw [hd] at hr; cases hr
      exact ⟨[.applyUpdate _ _], _, (fun k i h => by simp at h), runFrom_one (applyUpdate_step hd), .inl (by simp [Tracker.logged, nonEmpty])⟩
    · rw [hd] at hr; cases hr
      refine ⟨[.applyUpdate _ _], _, (fun k i h => by simp at h), runFrom_one (applyUpdate_step hd), ?_⟩
      have : (Tracker.logged (t, (.ok cs : Except (CGUpdateError P) (KeychainChangeSet Keychain P T)))).2.toList = [cs] := by
        simp [Tracker.logged]
      rw [this]
      rcases disk_store w.trace cs ok [] rfl with hd | ⟨hd, h4, -⟩
      · rw [List.append_nil] at hd; exact .inl hd
      · rw [List.append_nil] at hd; exact .inr ⟨hd, h4⟩

end Verif.Cli
