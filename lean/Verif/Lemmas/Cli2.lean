import Verif.Lemmas.Cli
import Verif.Lemmas.Grew

/-!
# Lemmas about runs of the program: what a new start finds
-/

set_option linter.unusedSectionVars false

namespace Verif.Cli
open Verif Verif.CoinSelect Verif.Planner Verif.Spec Verif.Props

variable {D Key Ak Sec XPrv Msg T P : Type} [DescriptorOps D] [DecidableEq D] [LinearOrder P] [ChainPosition P] [LawfulChainPosition P] [LinearOrder T]
  [AsTransaction T] [LawfulTx T] [DecidableEq Key]

theorem replay_grew {log : List (KeychainChangeSet Keychain P T)} {t t' : Tracker Keychain D P T} (h : t.replay log = some t') :
    Grew t.txoutIndex t'.txoutIndex := by
  induction log generalizing t with
  | nil => cases h; exact .refl _
  | cons cs log ih =>
    unfold Tracker.replay at h
    rw [List.foldlM_cons] at h
    cases h1 : t.applyChangeset cs with
    | none => rw [h1] at h; cases h
    | some t1 =>
      rw [h1] at h
      exact (applyChangeset_grew h1).trans (ih h)

/-- a run of calls, and its changesets applied to a tracker that differs in the marks only -/
theorem run_sim {ops : List (Tracker.Op Keychain P T)} {t t' : Tracker Keychain D P T} {r}
    (hs : KeychainIndex.Sim t.txoutIndex t'.txoutIndex) (hc : t'.chainGraph = t.chainGraph)
    (hl : SparseChain.Limited t.chainGraph.chain) (h : t.runFrom ops = some r) :
    ∃ r', t'.replay r.2 = some r' ∧ KeychainIndex.Sim r.1.txoutIndex r'.txoutIndex ∧ r'.chainGraph = r.1.chainGraph ∧
      SparseChain.Limited r.1.chainGraph.chain := by
  induction ops generalizing t t' r with
  | nil => cases h; exact ⟨t', rfl, hs, hc, hl⟩
  | cons op ops ih =>
    obtain ⟨r1, r2, h1, h2, rfl⟩ := runFrom_cons h
    obtain ⟨t1, e1, e2, e3, e4, -⟩ := step_sim hs hc hl h1
    obtain ⟨t2, f1, f2, f3, f4⟩ := ih e2 e3 e4 h2
    refine ⟨t2, ?_, f2, f3, f4⟩
    unfold Tracker.replay at *
    rw [List.foldlM_append, e1]
    exact f1

theorem replay_append (t : Tracker Keychain D P T) (a b : List (KeychainChangeSet Keychain P T)) :
    t.replay (a ++ b) = (t.replay a).bind (fun t' => t'.replay b) := by
  unfold Tracker.replay
  rw [List.foldlM_append]; rfl

theorem replay_limited {log : List (KeychainChangeSet Keychain P T)} {t t' : Tracker Keychain D P T} (h : t.replay log = some t')
    (hl : SparseChain.Limited t.chainGraph.chain) : SparseChain.Limited t'.chainGraph.chain := by
  induction log generalizing t with
  | nil => cases h; exact hl
  | cons cs log ih =>
    unfold Tracker.replay at h
    rw [List.foldlM_cons] at h
    cases h1 : t.applyChangeset cs with
    | none => rw [h1] at h; cases h
    | some t1 =>
      rw [h1] at h
      refine ih h ?_
      unfold Tracker.applyChangeset at h1
      cases e1 : t.txoutIndex.applyAdditions cs.derivationIndices with
      | none => rw [e1] at h1; cases h1
      | some i =>
        rw [e1] at h1
        simp only [Option.bind_eq_bind, Option.bind_some] at h1
        cases e2 : i.scan cs.chainGraph.graph.txouts with
        | none => rw [e2] at h1; cases h1
        | some r =>
          rw [e2] at h1
          cases h1
          exact SparseChain.applyChangeset_limited _ _

theorem sim_same {s s' : KeychainIndex Keychain D} (h : KeychainIndex.Sim s s') : SameButMarks s s' :=
  ⟨h.keychains.symm, h.lastRevealed.symm, h.lookahead.symm, h.inner.spks.symm, h.inner.spkIndices.symm, h.inner.txouts.symm,
    h.inner.spkTxouts.symm⟩

theorem same_sim {s s' : KeychainIndex Keychain D} (h : SameButMarks s s') : KeychainIndex.Sim s s' :=
  ⟨⟨h.2.2.2.1.symm, h.2.2.2.2.1.symm, h.2.2.2.2.2.1.symm, h.2.2.2.2.2.2.symm⟩, h.1.symm, h.2.1.symm, h.2.2.1.symm⟩

/-- what `base` must satisfy; `init` establishes it (`initTracker_base`) -/
structure BaseOk (base : Tracker Keychain D P T) : Prop where
  reach : KeychainIndex.Reachable base.txoutIndex
  derivable : AllDerivable base.txoutIndex
  limited : SparseChain.Limited base.chainGraph.chain

/-- the state of the running program -/
structure TrackerOk (base t : Tracker Keychain D P T) : Prop where
  reach : KeychainIndex.Reachable t.txoutIndex
  kc : t.txoutIndex.keychains = base.txoutIndex.keychains
  limited : SparseChain.Limited t.chainGraph.chain

theorem TrackerOk.derivable {base t : Tracker Keychain D P T} (h : TrackerOk base t) (hb : BaseOk base) :
    AllDerivable t.txoutIndex := KeychainIndex.AllDerivable_congr h.kc hb.derivable

theorem Grew.reach {s s' : KeychainIndex Keychain D} (h : Grew s s') (hr : KeychainIndex.Reachable s) : KeychainIndex.Reachable s' := h.1 hr
theorem Grew.kc {s s' : KeychainIndex Keychain D} (h : Grew s s') : s'.keychains = s.keychains := h.2.choose_spec.kc

theorem Grew.lr {s s' : KeychainIndex Keychain D} (h : Grew s s') {k : Keychain} {i : Nat} (hi : s.lastRevealedIndex k = some i) :
    ∃ j, s'.lastRevealedIndex k = some j ∧ i ≤ j := by
  obtain ⟨-, a, ha⟩ := h
  unfold KeychainIndex.lastRevealedIndex at *
  rw [ha.lr, DerivationAdditions.get_append, hi]
  cases OMap.get a k with
  | none => exact ⟨i, rfl, le_refl _⟩
  | some j => exact ⟨max i j, rfl, le_max_left _ _⟩

theorem reload_ok {base t : Tracker Keychain D P T} (hb : BaseOk base) {log} (h : base.replay log = some t) : TrackerOk base t :=
  ⟨(replay_grew h).reach hb.reach, (replay_grew h).kc, replay_limited h hb.limited⟩

theorem step_trackerOk {env : Env D Key Ak Sec XPrv Msg T} {base : Tracker Keychain D P T} (hb : BaseOk base) {w w' : World D P T}
    {a : Act P T} (ht : TrackerOk base w.tracker) (h : step env base w a = some w') : TrackerOk base w'.tracker := by
  by_cases hc : Crashes a
  · have key : ∀ tr : List (Event P T), reload base tr = some w' → TrackerOk base w'.tracker := by
      intro tr h
      unfold reload at h
      cases hr : base.replay (diskOf tr) with
      | none => rw [hr] at h; cases h
      | some t => rw [hr] at h; cases h; exact reload_ok hb hr
    cases a with
    | restart => exact key _ h
    | crashIn a m =>
      simp only [step] at h
      cases hs : step env base w a with
      | none => rw [hs] at h; cases h
      | some w1 => rw [hs] at h; exact key _ h
    | _ => cases hc
  · obtain ⟨ops, log, -, h1, -⟩ := step_ops hc h
    obtain ⟨r', -, -, -, h4⟩ := run_sim (.refl _) rfl ht.limited h1
    exact ⟨(run_grew h1).reach ht.reach, (run_grew h1).kc.trans ht.kc, h4⟩

theorem run_trackerOk {env : Env D Key Ak Sec XPrv Msg T} {base : Tracker Keychain D P T} (hb : BaseOk base) {w : World D P T}
    (h : Run env base w) : TrackerOk base w.tracker := by
  induction h with
  | init => exact ⟨hb.reach, rfl, hb.limited⟩
  | step a _ hs ih => exact step_trackerOk hb ih hs

theorem _root_.Verif.Spec.LosslessRun.run {env : Env D Key Ak Sec XPrv Msg T} {base : Tracker Keychain D P T} {w : World D P T}
    (h : LosslessRun env base w) : Run env base w := by
  induction h with
  | init => exact .init
  | step a _ hs _ ih => exact .step a ih hs

/-- the calls of an action applied to a synchronised world -/
theorem inSync_ops {base : Tracker Keychain D P T} (hb : BaseOk base) {w w' : World D P T} (ht : TrackerOk base w.tracker)
    (hi : InSync base w) {ops log} (h1 : w.tracker.runFrom ops = some (w'.tracker, log))
    (h2 : diskOf w'.trace = diskOf w.trace ++ nonEmpty log) : InSync base w' := by
  obtain ⟨t', e1, e2, e3⟩ := hi
  obtain ⟨r', f1, f2, f3, -⟩ := run_sim (same_sim e3) e2 ht.limited h1
  refine ⟨r', ?_, f3, sim_same f2⟩
  have hl : SparseChain.Limited t'.chainGraph.chain := by rw [e2]; exact ht.limited
  rw [h2, replay_append, e1]
  simp only [Option.bind_some]
  rw [replay_nonEmpty log t' hl]
  exact f1

theorem sameButMarks_trans {a b c : KeychainIndex Keychain D} (h : SameButMarks a b) (h' : SameButMarks b c) : SameButMarks a c :=
  sim_same ((same_sim h).trans (same_sim h'))

theorem sameButMarks_symm {a b : KeychainIndex Keychain D} (h : SameButMarks a b) : SameButMarks b a :=
  ⟨h.1.symm, h.2.1.symm, h.2.2.1.symm, h.2.2.2.1.symm, h.2.2.2.2.1.symm, h.2.2.2.2.2.1.symm, h.2.2.2.2.2.2.symm⟩

/-- an action whose changesets are written is lossless -/
theorem lossless_ops {base : Tracker Keychain D P T} {w w' : World D P T} (ht : TrackerOk base w.tracker)
    {ops log} (h1 : w.tracker.runFrom ops = some (w'.tracker, log))
    (h2 : diskOf w'.trace = diskOf w.trace ++ nonEmpty log) : Lossless w w' := by
  intro h3
  have h4 : nonEmpty log = [] := by
    rw [h3] at h2
    simpa using h2.symm
  obtain ⟨r', f1, f2, f3, -⟩ := run_sim (.refl _) rfl ht.limited h1
  rw [← replay_nonEmpty log _ ht.limited, h4] at f1
  have f1 : w.tracker = r' := Option.some.inj f1
  subst f1
  exact ⟨f3.symm, sameButMarks_symm (sim_same f2)⟩

theorem inSync_lossless {base : Tracker Keychain D P T} {w w' : World D P T} (hi : InSync base w)
    (h : Lossless w w') (hd : diskOf w'.trace = diskOf w.trace) : InSync base w' := by
  obtain ⟨t', e1, e2, e3⟩ := hi
  obtain ⟨g1, g2⟩ := h hd
  exact ⟨t', by rw [hd]; exact e1, e2.trans g1.symm, sameButMarks_trans (sameButMarks_symm g2) e3⟩

theorem crash_reload {env : Env D Key Ak Sec XPrv Msg T} {base : Tracker Keychain D P T} {w w' : World D P T} {a : Act P T}
    (hc : Crashes a) (h : step env base w a = some w') :
    w'.jobs = [] ∧ base.replay (diskOf w'.trace) = some w'.tracker ∧
      (w'.trace = w.trace ∨ ∃ a' w1 m, step env base w a' = some w1 ∧ w'.trace = w1.trace.take (w.trace.length + m)) := by
  have key : ∀ tr : List (Event P T), reload base tr = some w' → w'.jobs = [] ∧ base.replay (diskOf w'.trace) = some w'.tracker ∧
      w'.trace = tr := by
    intro tr h
    unfold reload at h
    cases hr : base.replay (diskOf tr) with
    | none => rw [hr] at h; cases h
    | some t => rw [hr] at h; cases h; exact ⟨rfl, hr, rfl⟩
  cases a with
  | restart => obtain ⟨h1, h2, h3⟩ := key _ h; exact ⟨h1, h2, .inl h3⟩
  | crashIn a m =>
    simp only [step] at h
    cases hs : step env base w a with
    | none => rw [hs] at h; cases h
    | some w1 =>
      rw [hs] at h
      obtain ⟨h1, h2, h3⟩ := key _ h
      exact ⟨h1, h2, .inr ⟨a, w1, m, hs, h3⟩⟩
  | _ => cases hc

theorem inSync_reload {base : Tracker Keychain D P T} {w : World D P T} (h : base.replay (diskOf w.trace) = some w.tracker) :
    InSync base w := ⟨w.tracker, h, rfl, sim_same (.refl _)⟩

theorem lossless_inSync {env : Env D Key Ak Sec XPrv Msg T} {base : Tracker Keychain D P T} (hb : BaseOk base) {w : World D P T}
    (h : LosslessRun env base w) : InSync base w := by
  induction h with
  | init => exact inSync_reload rfl
  | @step w w' a hr hs hl ih =>
    by_cases hc : Crashes a
    · exact inSync_reload (crash_reload hc hs).2.1
    · obtain ⟨ops, log, -, h1, h2 | ⟨h2, -⟩⟩ := step_ops hc hs
      · exact inSync_ops hb (run_trackerOk hb hr.run) ih h1 h2
      · exact inSync_lossless ih (hl.resolve_right hc) h2

/-! ### knowing a script -/

theorem knows_grew {t t' : Tracker Keychain D P T} (hr : KeychainIndex.Reachable t.txoutIndex) (hd : AllDerivable t.txoutIndex)
    (hg : Grew t.txoutIndex t'.txoutIndex) {k i spk} (h : Knows t k i spk) : Knows t' k i spk := by
  obtain ⟨⟨j, h1, h2⟩, h3⟩ := h
  obtain ⟨j', h4, h5⟩ := hg.lr h1
  refine ⟨⟨j', h4, h2.trans h5⟩, ?_⟩
  have hd' : AllDerivable t'.txoutIndex := KeychainIndex.AllDerivable_congr hg.kc hd
  have h3' : stored t.txoutIndex k i = some spk := h3
  show stored t'.txoutIndex k i = some spk
  cases hk : t.txoutIndex.keychains.get k with
  | none => rw [C33_unknown_keychain_empty hr hd k hk] at h3'; cases h3'
  | some d =>
    obtain ⟨n, e1, e2, -⟩ := C33_stored_contiguous hr hd k d hk
    rw [← hg.kc] at hk
    obtain ⟨n', f1, -, f3⟩ := C33_stored_contiguous (hg.reach hr) hd' k d hk
    rw [e1] at h3'
    by_cases hn : i < n
    · rw [if_pos hn] at h3'
      have : numRevealed t'.txoutIndex k = j' + 1 := by unfold numRevealed; rw [h4]
      rw [f1, if_pos (by omega)]
      exact h3'
    · rw [if_neg hn] at h3'; cases h3'

theorem knows_same {t t' : Tracker Keychain D P T} (h : SameButMarks t.txoutIndex t'.txoutIndex) {k i spk}
    (hk : Knows t k i spk) : Knows t' k i spk := by
  unfold Knows KeychainIndex.lastRevealedIndex SpkIndex.spkAtIndex at *
  rw [h.2.1, h.2.2.2.1]; exact hk

theorem revealNext_knows {s : KeychainIndex Keychain D} (hr : KeychainIndex.Reachable s) (hd : AllDerivable s) {k : Keychain} {q}
    (h : s.revealNextSpk k = some q) :
    (∃ j, q.1.lastRevealedIndex k = some j ∧ q.2.1.1 ≤ j) ∧ q.1.inner.spkAtIndex (toLex (k, q.2.1.1)) = some q.2.1.2 := by
  obtain ⟨n, r', hn, hr', hs, e1, e2, e3⟩ := KeychainIndex.revealNext_spec h
  obtain ⟨d, -, -, hk, -⟩ := KeychainIndex.reveal_main hr' (KeychainIndex.reachable_inv hr hd) hd
  obtain ⟨h1, h2, h3, -⟩ := C34_reveal_next_spk hr hd k q h d hk
  refine ⟨⟨_, h3, h1.le⟩, ?_⟩
  rw [e2]
  have hu := KeychainIndex.revealNext_upd h
  have hq : KeychainIndex.Reachable q.1 := hr.step (op := .revealNextSpk k) (r := (q.1, q.2.2)) (by
    simp only [KeychainIndex.step, h, Option.map_some])
  obtain ⟨m, f1, f2, f3⟩ := C33_stored_contiguous hq (KeychainIndex.AllDerivable_congr hu.kc hd) k d (by rw [hu.kc]; exact hk)
  have hnum : numRevealed q.1 k = min (numRevealed s k) (cap d) + 1 := by unfold numRevealed at *; rw [h3]
  show stored q.1 k n.1 = _
  rw [← e2, h1, f1, if_pos (by omega)]
  exact h2

theorem nextUnused_knows {s : KeychainIndex Keychain D} (hr : KeychainIndex.Reachable s) (hd : AllDerivable s) {k : Keychain} {q}
    (h : s.nextUnusedSpk k = some q) :
    (∃ j, q.1.lastRevealedIndex k = some j ∧ q.2.1.1 ≤ j) ∧ q.1.inner.spkAtIndex (toLex (k, q.2.1.1)) = some q.2.1.2 := by
  by_cases hu : ∃ i, RevealedUnused s k i
  · obtain ⟨h1, -, h3, h4, -⟩ := C37_next_unused_lowest hr hd k q h hu
    rw [h4]
    refine ⟨?_, h3⟩
    have := h1.1
    unfold numRevealed at this
    cases hl : s.lastRevealedIndex k with
    | none => rw [hl] at this; simp at this
    | some j => rw [hl] at this; simp at this; exact ⟨j, rfl, by omega⟩
  · exact revealNext_knows hr hd (C37_next_unused_reveals k q h hu)

/-! ### what is visible -/

theorem split_left {α : Type} {V : α → Prop} {pre post tr st : List α} {e : α} (h : tr ++ st = pre ++ e :: post) (hv : V e)
    (hn : ∀ x ∈ st, ¬ V x) : ∃ post', tr = pre ++ e :: post' := by
  rcases List.append_eq_append_iff.mp h with ⟨l, h1, h2⟩ | ⟨l, h1, h2⟩
  · exact absurd hv (hn e (by rw [h2]; simp))
  · cases l with
    | nil => simp only [List.nil_append] at h2; exact absurd hv (hn e (by rw [← h2]; simp))
    | cons x l =>
      simp only [List.cons_append, List.cons.injEq] at h2
      exact ⟨l, by rw [h1, h2.1]⟩

theorem recoverable_append {base : Tracker Keychain D P T} {tr st : List (Event P T)} (h : Recoverable base tr)
    (hn : ∀ e ∈ st, ¬ Visible e) : Recoverable base (tr ++ st) := by
  constructor
  · intro pre post k i spk he
    obtain ⟨post', h'⟩ := split_left (V := Visible) he trivial hn
    exact h.1 _ _ _ _ _ h'
  · intro pre post tx ok he
    obtain ⟨post', h'⟩ := split_left (V := Visible) he trivial hn
    exact h.2 _ _ _ _ h'

theorem split_last {α : Type} {pre post tr : List α} {e x : α} (h : tr ++ [x] = pre ++ e :: post) :
    (∃ post', tr = pre ++ e :: post') ∨ (pre = tr ∧ e = x) := by
  rcases List.append_eq_append_iff.mp h with ⟨l, h1, h2⟩ | ⟨l, h1, h2⟩
  · cases l with
    | nil =>
      simp only [List.nil_append, List.cons.injEq] at h2
      exact .inr ⟨by rw [h1]; simp, h2.1.symm⟩
    | cons y l => simp at h2
  · cases l with
    | nil =>
      simp only [List.nil_append, List.cons.injEq] at h2
      exact .inr ⟨by rw [h1]; simp, h2.1⟩
    | cons y l =>
      simp only [List.cons_append, List.cons.injEq] at h2
      exact .inl ⟨l, by rw [h1, h2.1]⟩

theorem recoverable_shown {base : Tracker Keychain D P T} {tr : List (Event P T)} (h : Recoverable base tr) {k i spk} {t' : Tracker Keychain D P T}
    (h1 : base.replay (diskOf tr) = some t') (h2 : Knows t' k i spk) : Recoverable base (tr ++ [.shown k i spk]) := by
  constructor
  · intro pre post k' i' spk' he
    rcases split_last he with ⟨post', h'⟩ | ⟨rfl, h'⟩
    · exact h.1 _ _ _ _ _ h'
    · cases h'; exact ⟨t', h1, h2⟩
  · intro pre post tx ok he
    rcases split_last he with ⟨post', h'⟩ | ⟨rfl, h'⟩
    · exact h.2 _ _ _ _ h'
    · cases h'

theorem recoverable_broadcast {base : Tracker Keychain D P T} {tr : List (Event P T)} (h : Recoverable base tr) {tx : BuiltTx} {ok : Bool}
    {t' : Tracker Keychain D P T} (h1 : base.replay (diskOf tr) = some t')
    (h2 : ∀ out ∈ tx.output.tail, ∃ k i, Knows t' k i out.spk) : Recoverable base (tr ++ [.broadcast tx ok]) := by
  constructor
  · intro pre post k' i' spk' he
    rcases split_last he with ⟨post', h'⟩ | ⟨rfl, h'⟩
    · exact h.1 _ _ _ _ _ h'
    · cases h'
  · intro pre post tx ok he
    rcases split_last he with ⟨post', h'⟩ | ⟨rfl, h'⟩
    · exact h.2 _ _ _ _ h'
    · cases h'; exact ⟨t', h1, h2⟩

theorem recoverable_prefix {base : Tracker Keychain D P T} {a b : List (Event P T)} (h : Recoverable base (a ++ b)) : Recoverable base a :=
  ⟨fun pre post k i spk he => h.1 pre (post ++ b) k i spk (by rw [he]; simp),
   fun pre post tx ok he => h.2 pre (post ++ b) tx ok (by rw [he]; simp)⟩

theorem store_invisible (cs : KeychainChangeSet Keychain P T) (ok : Bool) : ∀ e ∈ (store cs ok).1, ¬ Visible e := by
  intro e he
  rcases store_cases cs ok with ⟨-, h⟩ | ⟨-, -, h⟩ | ⟨-, -, h⟩ <;> rw [h] at he <;> simp at he <;> subst he <;> exact id

/-- the scripts of the outputs after the payment are known -/
def JobsKnown (w : World D P T) : Prop :=
  ∀ j ∈ w.jobs, ∀ out ∈ j.flight.tx.output.tail, ∃ k i, Knows w.tracker k i out.spk

theorem step_jobsKnown {env : Env D Key Ak Sec XPrv Msg T} {base : Tracker Keychain D P T} (hb : BaseOk base) {w w' : World D P T}
    {a : Act P T} (ht : TrackerOk base w.tracker) (hj : JobsKnown w) (h : step env base w a = some w') : JobsKnown w' := by
  by_cases hc : Crashes a
  · intro j hm
    rw [(crash_reload hc h).1] at hm; cases hm
  · obtain ⟨ops, log, -, h1, -⟩ := step_ops hc h
    have hg := run_grew h1
    have old : ∀ j ∈ w.jobs, ∀ out ∈ j.flight.tx.output.tail, ∃ k i, Knows w'.tracker k i out.spk := by
      intro j hm out ho
      obtain ⟨k, i, hk⟩ := hj j hm out ho
      exact ⟨k, i, knows_grew ht.reach (ht.derivable hb) hg hk⟩
    have keep : (∀ j ∈ w'.jobs, ∃ j' ∈ w.jobs, j'.flight = j.flight) → JobsKnown w' := by
      intro hk j hm
      obtain ⟨j', hm', he⟩ := hk j hm
      rw [← he]; exact old j' hm'
    cases a with
    | restart => exact absurd trivial hc
    | crashIn => exact absurd trivial hc
    | address cmd ok =>
      simp only [step] at h
      rcases hr : runAddressCmd w.tracker cmd ok with _ | ⟨t, es, res⟩
      · rw [hr] at h; cases h
      rw [hr] at h; cases h
      exact keep fun j hm => ⟨j, hm, rfl⟩
    | sendPrepare luck value payee algo ok =>
      simp only [step] at h
      rcases hr : sendPrepare env luck w.tracker value payee algo ok with _ | ⟨t, es, e | f⟩
      · rw [hr] at h; cases h
      · rw [hr] at h; cases h; exact keep fun j hm => ⟨j, hm, rfl⟩
      · rw [hr] at h
        cases h
        intro j hm
        rcases List.mem_append.mp hm with hm | hm
        · exact old j hm
        · rw [List.mem_singleton] at hm
          subst hm
          simp only
          obtain ⟨q, e0, e1⟩ := prepare_spec hr
          rcases e1 with ⟨-, -, e1⟩ | ⟨-, e1, -, f', e2, -, v, e3⟩ | ⟨-, -, -, e1⟩
          · rcases e1 with ⟨e, e1⟩ | ⟨f', e1, -, e2⟩
            · cases e1
            · simp only [Except.ok.injEq] at e1
              subst e1
              rw [e2]; intro out ho; cases ho
          · simp only [Except.ok.injEq] at e2
            subst e2
            rw [e3]
            intro out ho
            simp only [List.tail_cons, List.mem_singleton] at ho
            subst ho
            have hk := nextUnused_knows ht.reach (ht.derivable hb) e0
            refine ⟨internalKeychain w.tracker, q.2.1.1, ?_⟩
            simp only at e1
            subst e1
            have : SameButMarks q.1 (q.1.markUsed (internalKeychain w.tracker) q.2.1.1).1 := ⟨rfl, rfl, rfl, rfl, rfl, rfl, rfl⟩
            exact knows_same (t := { w.tracker with txoutIndex := q.1 }) this hk
          · cases e1
    | broadcast n ok =>
      simp only [step] at h
      split at h
      · rename_i f hn
        cases h
        refine keep fun j hm => ?_
        rcases List.mem_or_eq_of_mem_set hm with hm | rfl
        · exact ⟨j, hm, rfl⟩
        · exact ⟨_, List.mem_of_getElem? hn, rfl⟩
      · cases h; exact keep fun j hm => ⟨j, hm, rfl⟩
    | sendFinish n o ok =>
      simp only [step] at h
      split at h
      · rename_i f hn
        rcases hr : sendSucceeded env w.tracker f o ok with _ | ⟨t, es, res⟩
        · rw [hr] at h; cases h
        rw [hr] at h; cases h
        exact keep fun j hm => ⟨j, List.mem_of_mem_eraseIdx hm, rfl⟩
      · cases h
        exact keep fun j hm => ⟨j, List.mem_of_mem_eraseIdx hm, rfl⟩
      · cases h; exact keep fun j hm => ⟨j, hm, rfl⟩
    | syncElectrum scan o ok =>
      simp only [step] at h
      rcases hr : syncElectrum w.tracker scan o ok with _ | ⟨t, es⟩
      · rw [hr] at h; cases h
      rw [hr] at h; cases h
      exact keep fun j hm => ⟨j, hm, rfl⟩
    | syncEsplora scan o ok =>
      simp only [step] at h
      rcases hr : syncEsplora w.tracker scan o ok with _ | ⟨t, es⟩
      · rw [hr] at h; cases h
      rw [hr] at h; cases h
      exact keep fun j hm => ⟨j, hm, rfl⟩

theorem syncElectrum_invisible {t : Tracker Keychain D P T} {scan o ok r} (h : syncElectrum (P := P) (T := T) t scan o ok = some r) :
    ∀ e ∈ r.2, ¬ Visible e := by
  unfold syncElectrum at h
  cases hd : t.determineChangeset scan o with
  | panic => rw [hd] at h; cases h
  | err e => rw [hd] at h; cases h; intro e he; cases he
  | ok cs =>
    rw [hd] at h
    simp only at h
    cases hs : (store cs ok).2 with
    | true =>
      rw [hs, if_pos rfl, Option.map_eq_some_iff] at h
      obtain ⟨t', -, rfl⟩ := h
      exact store_invisible cs ok
    | false =>
      rw [hs, if_neg (by decide)] at h
      cases h
      exact store_invisible cs ok

theorem syncEsplora_invisible {t : Tracker Keychain D P T} {scan o ok r} (h : syncEsplora (P := P) (T := T) t scan o ok = some r) :
    ∀ e ∈ r.2, ¬ Visible e := by
  unfold syncEsplora at h
  rcases hd : t.applyUpdate scan o with _ | ⟨t', e | cs⟩
  · rw [hd] at h; cases h
  · rw [hd] at h; cases h; intro e he; cases he
  · rw [hd] at h; cases h; exact store_invisible cs ok

theorem step_recoverable {env : Env D Key Ak Sec XPrv Msg T} {base : Tracker Keychain D P T} (hb : BaseOk base) {w w' : World D P T}
    {a : Act P T} (ht : TrackerOk base w.tracker) (hi : InSync base w) (hj : JobsKnown w) (hv : Recoverable base w.trace)
    (h : step env base w a = some w') : Recoverable base w'.trace := by
  induction a generalizing w' with
  | restart =>
    rcases (crash_reload (a := .restart) trivial h).2.2 with h1 | ⟨a', w1, m, h1, h2⟩
    · rw [h1]; exact hv
    · simp only [step] at h
      unfold reload at h
      cases hr : base.replay (diskOf w.trace) with
      | none => rw [hr] at h; cases h
      | some t => rw [hr] at h; cases h; exact hv
  | crashIn a m ih =>
    simp only [step] at h
    cases hs : step env base w a with
    | none => rw [hs] at h; cases h
    | some w1 =>
      rw [hs] at h
      simp only at h
      unfold reload at h
      have := ih hs
      cases hr : base.replay (diskOf (w1.trace.take (w.trace.length + m))) with
      | none => rw [hr] at h; cases h
      | some t =>
        rw [hr] at h; cases h
        rw [← List.take_append_drop (w.trace.length + m) w1.trace] at this
        exact recoverable_prefix this
  | address cmd ok =>
    simp only [step] at h
    rcases hr : runAddressCmd w.tracker cmd ok with _ | ⟨t, es, res⟩
    · rw [hr] at h; cases h
    rw [hr] at h
    cases h
    rcases address_spec hr with ⟨-, h2, -⟩ | ⟨q, h1, h2, h3⟩
    · simp only at h2
      subst h2
      exact recoverable_append hv (by intro e he; cases he)
    · simp only at h2 h3
      subst h2
      have hst : ∃ op, w.tracker.step op = some ({ w.tracker with txoutIndex := q.1 }, some (.ofAdditions q.2.2)) := by
        rcases h1 with ⟨-, h1⟩ | ⟨-, h1⟩
        · exact ⟨_, next_step h1⟩
        · exact ⟨_, reveal_step h1⟩
      have hk : Knows ({ w.tracker with txoutIndex := q.1 } : Tracker Keychain D P T) .external q.2.1.1 q.2.1.2 := by
        rcases h1 with ⟨-, h1⟩ | ⟨-, h1⟩
        · exact nextUnused_knows ht.reach (ht.derivable hb) h1
        · exact revealNext_knows ht.reach (ht.derivable hb) h1
      obtain ⟨op, hst⟩ := hst
      rcases h3 with ⟨e1, e2, -⟩ | ⟨e1, e2, -⟩
      · subst e2
        simp only
        rw [← List.append_assoc]
        have hd : diskOf (w.trace ++ (store (.ofAdditions q.2.2) ok).1) = diskOf w.trace ++ nonEmpty [.ofAdditions q.2.2] := by
          rcases disk_store w.trace (.ofAdditions q.2.2) ok [] rfl with hd | ⟨-, -, hd⟩
          · rw [List.append_nil] at hd; exact hd
          · rw [e1] at hd; cases hd
        obtain ⟨t', f1, -, f3⟩ := inSync_ops hb (w' := ⟨{ w.tracker with txoutIndex := q.1 }, [], w.trace ++ (store (.ofAdditions q.2.2) ok).1⟩)
          ht hi (runFrom_one hst) hd
        exact recoverable_shown (recoverable_append hv (store_invisible _ _)) f1 (knows_same f3 hk)
      · subst e2
        exact recoverable_append hv (store_invisible _ _)
  | sendPrepare luck value payee algo ok =>
    simp only [step] at h
    rcases hr : sendPrepare env luck w.tracker value payee algo ok with _ | ⟨t, es, e⟩
    · rw [hr] at h; cases h
    rw [hr] at h
    have hes : ∀ e ∈ es, ¬ Visible e := by
      obtain ⟨q, -, h2⟩ := prepare_spec hr
      rcases h2 with ⟨-, e2, -⟩ | ⟨-, -, e2, -⟩ | ⟨-, -, e2, -⟩ <;> simp only at e2 <;> subst e2
      · intro e he; cases he
      · exact store_invisible _ _
      · exact store_invisible _ _
    cases e <;> cases h <;> exact recoverable_append hv hes
  | broadcast n ok =>
    simp only [step] at h
    split at h
    · rename_i f hn
      cases h
      obtain ⟨t', e1, -, e3⟩ := hi
      refine recoverable_broadcast hv e1 fun out ho => ?_
      obtain ⟨k, i, hk⟩ := hj _ (List.mem_of_getElem? hn) out ho
      exact ⟨k, i, knows_same e3 hk⟩
    · cases h; exact hv
  | sendFinish n o ok =>
    simp only [step] at h
    split at h
    · rename_i f hn
      rcases hr : sendSucceeded env w.tracker f o ok with _ | ⟨t, es, res⟩
      · rw [hr] at h; cases h
      rw [hr] at h; cases h
      refine recoverable_append hv ?_
      obtain ⟨q, -, -, h3⟩ := succeeded_spec hr
      rcases h3 with ⟨e, -, h4, -⟩ | ⟨cs, -, h4, -⟩ <;> simp only at h4 <;> subst h4
      · intro e he; cases he
      · exact store_invisible _ _
    · cases h; exact hv
    · cases h; exact hv
  | syncElectrum scan o ok =>
    simp only [step] at h
    rcases hr : syncElectrum w.tracker scan o ok with _ | ⟨t, es⟩
    · rw [hr] at h; cases h
    rw [hr] at h; cases h
    exact recoverable_append hv (syncElectrum_invisible hr)
  | syncEsplora scan o ok =>
    simp only [step] at h
    rcases hr : syncEsplora w.tracker scan o ok with _ | ⟨t, es⟩
    · rw [hr] at h; cases h
    rw [hr] at h; cases h
    exact recoverable_append hv (syncEsplora_invisible hr)

theorem run_jobsKnown {env : Env D Key Ak Sec XPrv Msg T} {base : Tracker Keychain D P T} (hb : BaseOk base) {w : World D P T}
    (h : Run env base w) : JobsKnown w := by
  induction h with
  | init => intro j hj; cases hj
  | step a hr hs ih => exact step_jobsKnown hb (run_trackerOk hb hr) ih hs

theorem lossless_recoverable {env : Env D Key Ak Sec XPrv Msg T} {base : Tracker Keychain D P T} (hb : BaseOk base) {w : World D P T}
    (h : LosslessRun env base w) : Recoverable base w.trace := by
  induction h with
  | init => exact ⟨fun pre post k i spk he => by simp at he, fun pre post tx ok he => by simp at he⟩
  | step a hr hs hl ih =>
    exact step_recoverable hb (run_trackerOk hb hr.run) (lossless_inSync hb hr) (run_jobsKnown hb hr.run) ih hs

theorem initTracker_base {cp : Nat} {ext : D} {int : Option D} {base : Tracker Keychain D P T} (hd : Derivable ext)
    (hd' : ∀ d ∈ int, Derivable d) (h : initTracker cp ext int = some base) : BaseOk base := by
  unfold initTracker at h
  simp only at h
  have h0 : BaseOk ((Tracker.empty : Tracker Keychain D P T).setCheckpointLimit (some cp)) :=
    ⟨⟨[], [], rfl⟩, fun k d h => (by cases h), SparseChain.prune_limited _⟩
  have add : ∀ (t t' : Tracker Keychain D P T) k d, BaseOk t → Derivable d → t.addKeychain k d = some t' → BaseOk t' := by
    intro t t' k d hb hd h
    unfold Tracker.addKeychain at h
    rw [Option.map_eq_some_iff] at h
    obtain ⟨i, hi, rfl⟩ := h
    refine ⟨hb.reach.step (op := .addKeychain k d) (r := (i, OMap.empty)) (by simp only [KeychainIndex.step, hi, Option.map_some]), ?_, hb.limited⟩
    intro k' d' hk
    unfold KeychainIndex.addKeychain at hi
    cases hg : t.txoutIndex.keychains.get k with
    | none =>
      rw [hg] at hi
      cases hi
      simp only [OMap.get_insert] at hk
      split at hk
      · cases hk; exact hd
      · exact hb.derivable _ _ hk
    | some d0 =>
      rw [hg] at hi
      simp only at hi
      split at hi
      · cases hi; exact hb.derivable _ _ hk
      · cases hi
  cases h1 : ((Tracker.empty : Tracker Keychain D P T).setCheckpointLimit (some cp)).addKeychain .external ext with
  | none => rw [h1] at h; cases h
  | some t =>
    rw [h1] at h
    have h2 := add _ _ _ _ h0 hd h1
    cases int with
    | none => cases h; exact h2
    | some d => exact add _ _ _ _ h2 (hd' d rfl) h

end Verif.Cli
