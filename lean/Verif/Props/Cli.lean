import Verif.Lemmas.Cli3
import Verif.Props.PlanWeight
import Verif.Props.KeyDerive

/-!
# C54: what the wallet commands of bdk_cli_lib guarantee across failures and crashes

The commands, the two sync programs and the start of the program are modelled in `Verif/Model/Cli.lean`; a run interleaves the
critical sections of any number of threads with crashes at any point (`Spec.Run`).
-/

set_option linter.unusedSectionVars false

namespace Verif.Cli
open Verif Verif.CoinSelect Verif.Planner Verif.Spec Verif.Props

variable {D Key Ak Sec XPrv Msg T P : Type} [DescriptorOps D] [DecidableEq D] [LinearOrder P] [ChainPosition P] [LawfulChainPosition P] [LinearOrder T]
  [AsTransaction T] [LawfulTx T] [DecidableEq Key]

/-- **C54** as long as no action loses anything (`C54_loss_cases` says when that can happen), at every moment of every
interleaving a new start of the program would find exactly the chain, the transactions, the revealed scripts and the outputs
the running program has -/
theorem C54_in_sync (env : Env D Key Ak Sec XPrv Msg T) {cp : Nat} {ext : D} {int : Option D} {base : Tracker Keychain D P T}
    (hd : Derivable ext) (hd' : ∀ d ∈ int, Derivable d) (hb : initTracker cp ext int = some base) {w : World D P T}
    (h : LosslessRun env base w) : InSync base w :=
  lossless_inSync (initTracker_base hd hd' hb) h

/-- **C54** as long as no action loses anything, whenever an address was shown or a transaction was handed to the network, the
database already held what a new start needs to know that address, or the script of the change; this includes crashes in the
middle of an action -/
theorem C54_recoverable (env : Env D Key Ak Sec XPrv Msg T) {cp : Nat} {ext : D} {int : Option D} {base : Tracker Keychain D P T}
    (hd : Derivable ext) (hd' : ∀ d ∈ int, Derivable d) (hb : initTracker cp ext int = some base) {w : World D P T}
    (h : LosslessRun env base w) : Recoverable base w.trace :=
  lossless_recoverable (initTracker_base hd hd' hb) h

/-- **C54** the only actions that can lose something: those whose write fails (but not in the electrum program), and a `Send`
that ends without a transaction with change -/
theorem C54_loss_cases (env : Env D Key Ak Sec XPrv Msg T) {cp : Nat} {ext : D} {int : Option D} {base : Tracker Keychain D P T}
    (hd : Derivable ext) (hd' : ∀ d ∈ int, Derivable d) (hb : initTracker cp ext int = some base) {w w' : World D P T}
    (h : Run env base w) (a : Act P T) (hs : step env base w a = some w') (hc : ¬ Crashes a) (hm : ¬ MayLose w w' a) :
    Lossless w w' := by
  obtain ⟨ops, log, -, h1, h2 | ⟨-, h2⟩⟩ := step_ops hc hs
  · exact lossless_ops (run_trackerOk (initTracker_base hd hd' hb) h) h1 h2
  · exact absurd h2 hm

/-- **C54** a `Send` loses nothing, whatever its outcome, if the change keychain has a revealed script that is not used -/
theorem C54_send_lossless_if_unused (env : Env D Key Ak Sec XPrv Msg T) {cp : Nat} {ext : D} {int : Option D}
    {base : Tracker Keychain D P T} (hd : Derivable ext) (hd' : ∀ d ∈ int, Derivable d) (hb : initTracker cp ext int = some base)
    {w w' : World D P T} (h : Run env base w) (luck value payee algo ok)
    (hs : step env base w (.sendPrepare luck value payee algo ok) = some w')
    (hu : ∃ i, RevealedUnused w.tracker.txoutIndex (internalKeychain w.tracker) i) : Lossless w w' := by
  have hok := run_trackerOk (initTracker_base hd hd' hb) h
  have hdv := hok.derivable (initTracker_base hd hd' hb)
  have same : ∀ (q : KeychainIndex Keychain D × (Nat × Script) × DerivationAdditions Keychain),
      w.tracker.txoutIndex.nextUnusedSpk (internalKeychain w.tracker) = some q → q.1 = w.tracker.txoutIndex :=
    fun q hq => (C37_next_unused_lowest hok.reach hdv _ q hq hu).2.2.2.1
  have mk : ∀ (s : KeychainIndex Keychain D) k i, SameButMarks s (s.markUsed k i).1 := fun s k i =>
    ⟨rfl, rfl, rfl, rfl, rfl, rfl, rfl⟩
  have rf : ∀ s : KeychainIndex Keychain D, SameButMarks s s := fun s => ⟨rfl, rfl, rfl, rfl, rfl, rfl, rfl⟩
  intro _
  simp only [step] at hs
  rcases hr : sendPrepare env luck w.tracker value payee algo ok with _ | ⟨t, es, e⟩
  · rw [hr] at hs; cases hs
  · have ht : w'.tracker = t := by
      rw [hr] at hs
      cases e <;> cases hs <;> rfl
    rw [ht]
    obtain ⟨q, hq, ⟨h1, -⟩ | ⟨-, h1, -⟩ | ⟨-, h1, -⟩⟩ := prepare_spec hr <;> simp only at h1 <;> rw [h1, same q hq]
    · exact ⟨rfl, rf _⟩
    · exact ⟨rfl, mk _ _ _⟩
    · exact ⟨rfl, rf _⟩

/-- **C54** after a new start nothing is pending, and the program has exactly what the database holds -/
theorem C54_restart (env : Env D Key Ak Sec XPrv Msg T) {base : Tracker Keychain D P T} {w w' : World D P T} (a : Act P T)
    (hc : Crashes a) (hs : step env base w a = some w') :
    w'.jobs = [] ∧ base.replay (diskOf w'.trace) = some w'.tracker ∧ InSync base w' := by
  obtain ⟨h1, h2, -⟩ := crash_reload hc hs
  exact ⟨h1, h2, inSync_reload h2⟩

/-- **C54** when a write fails, the action shows no address, hands nothing to the network and leaves no new transaction to be
handed to it later -/
theorem C54_persist_failure_silent (env : Env D Key Ak Sec XPrv Msg T) {base : Tracker Keychain D P T} {w w' : World D P T}
    (a : Act P T) (hc : ¬ Crashes a) (hs : step env base w a = some w') :
    ∃ es, w'.trace = w.trace ++ es ∧
      ((∃ cs, Event.storeFailed cs ∈ es) → (∀ e ∈ es, ¬ Visible e) ∧ w'.jobs.Sublist w.jobs) := by
  have none_ : ∀ cs, Event.storeFailed cs ∉ ([] : List (Event P T)) := fun _ h => by cases h
  have okay : ∀ (cs : KeychainChangeSet Keychain P T) ok, (store cs ok).2 = true → ∀ cs', Event.storeFailed cs' ∉ (store cs ok).1 := by
    intro cs ok h cs'
    rcases store_cases cs ok with ⟨h1, h2⟩ | ⟨h1, h2, h3⟩ | ⟨h1, h2, h3⟩ <;> rw [‹store cs ok = _›] at h ⊢
    · simp
    · simp
    · cases h
  cases a with
  | restart => exact absurd trivial hc
  | crashIn => exact absurd trivial hc
  | address cmd ok =>
    simp only [step] at hs
    rcases hr : runAddressCmd w.tracker cmd ok with _ | ⟨t, es, e⟩
    · rw [hr] at hs; cases hs
    · rw [hr] at hs
      cases hs
      refine ⟨es, rfl, fun ⟨cs, hcs⟩ => ⟨?_, .refl _⟩⟩
      rcases address_spec hr with ⟨-, h1, -⟩ | ⟨q, -, -, ⟨h1, h2, -⟩ | ⟨-, h2, -⟩⟩ <;> simp only at *
      · rw [h1] at hcs; cases hcs
      · rw [h2] at hcs
        rcases List.mem_append.1 hcs with h3 | h3
        · exact absurd h3 (okay _ _ h1 _)
        · simp at h3
      · rw [h2]; exact store_invisible _ _
  | broadcast n ok =>
    simp only [step] at hs
    rcases hj : w.jobs[n]? with _ | ⟨f, _ | s⟩ <;> rw [hj] at hs <;> cases hs
    · exact ⟨[], by simp, fun ⟨cs, h⟩ => absurd h (none_ cs)⟩
    · exact ⟨_, rfl, fun ⟨cs, h⟩ => by simp at h⟩
    · exact ⟨[], by simp, fun ⟨cs, h⟩ => absurd h (none_ cs)⟩
  | syncElectrum scan o ok =>
    simp only [step] at hs
    rcases hr : syncElectrum w.tracker scan o ok with _ | ⟨t, es⟩ <;> rw [hr] at hs <;> cases hs
    exact ⟨es, rfl, fun _ => ⟨syncElectrum_invisible hr, .refl _⟩⟩
  | syncEsplora scan o ok =>
    simp only [step] at hs
    rcases hr : syncEsplora w.tracker scan o ok with _ | ⟨t, es⟩ <;> rw [hr] at hs <;> cases hs
    exact ⟨es, rfl, fun _ => ⟨syncEsplora_invisible hr, .refl _⟩⟩
  | sendFinish n o ok =>
    simp only [step] at hs
    rcases hj : w.jobs[n]? with _ | ⟨f, _ | _ | _⟩ <;> rw [hj] at hs
    · cases hs; exact ⟨[], by simp, fun ⟨cs, h⟩ => absurd h (none_ cs)⟩
    · cases hs; exact ⟨[], by simp, fun ⟨cs, h⟩ => absurd h (none_ cs)⟩
    · cases hs; exact ⟨[], by simp, fun ⟨cs, h⟩ => absurd h (none_ cs)⟩
    · simp only at hs
      rcases hr : sendSucceeded env w.tracker f o ok with _ | ⟨t, es, e⟩ <;> rw [hr] at hs <;> cases hs
      refine ⟨es, rfl, fun _ => ⟨?_, List.eraseIdx_sublist ..⟩⟩
      obtain ⟨q, -, -, ⟨e, -, h2, -⟩ | ⟨cs, -, h2, -⟩⟩ := succeeded_spec hr <;> simp only at h2 <;> rw [h2]
      · intro e he; cases he
      · exact store_invisible _ _
  | sendPrepare luck value payee algo ok =>
    simp only [step] at hs
    rcases hr : sendPrepare env luck w.tracker value payee algo ok with _ | ⟨t, es, e | f⟩ <;> rw [hr] at hs <;> cases hs
    · refine ⟨es, rfl, fun ⟨cs, h⟩ => ⟨?_, .refl _⟩⟩
      obtain ⟨q, hq, ⟨-, h1, -⟩ | ⟨-, -, h1, -⟩ | ⟨-, -, h1, -⟩⟩ := prepare_spec hr <;> simp only at h1 <;> rw [h1]
      · intro e he; cases he
      · exact store_invisible _ _
      · exact store_invisible _ _
    · refine ⟨es, rfl, fun ⟨cs, h⟩ => ?_⟩
      exfalso
      obtain ⟨q, hq, ⟨-, h1, -⟩ | ⟨h0, -, h1, -⟩ | ⟨-, -, -, h1⟩⟩ := prepare_spec hr <;> simp only at h1
      · rw [h1] at h; cases h
      · rw [h1] at h; exact okay _ _ h0 _ h
      · cases h1

/-- **C54** the change of the transactions that are on their way to the network goes to different scripts, as long as the
keychain has scripts left -/
theorem C54_change_distinct (env : Env D Key Ak Sec XPrv Msg T) {cp : Nat} {ext : D} {int : Option D} {base : Tracker Keychain D P T}
    (hd : Derivable ext) (hd' : ∀ d ∈ int, Derivable d) (hb : initTracker cp ext int = some base) {w : World D P T}
    (h : Run env base w) (k : Keychain) (d : D) (hk : w.tracker.txoutIndex.keychains.get k = some d)
    (hc : numRevealed w.tracker.txoutIndex k ≤ cap d) : (pendingChange k w.jobs).Nodup :=
  (run_reserved (initTracker_base hd hd' hb) h k d hk hc).1

/-- **C54** while a transaction is on its way to the network, no command shows the script of its change as an address -/
theorem C54_change_not_shown (env : Env D Key Ak Sec XPrv Msg T) {cp : Nat} {ext : D} {int : Option D} {base : Tracker Keychain D P T}
    (hd : Derivable ext) (hd' : ∀ d ∈ int, Derivable d) (hb : initTracker cp ext int = some base) {w w' : World D P T}
    (h : Run env base w) (k : Keychain) (d : D) (hk : w.tracker.txoutIndex.keychains.get k = some d)
    (hc : numRevealed w.tracker.txoutIndex k ≤ cap d) (a : Act P T) (hca : ¬ Crashes a) (hs : step env base w a = some w')
    (i : Nat) (spk : Script) (hi : i ∈ pendingChange k w.jobs) (es : List (Event P T)) (hes : w'.trace = w.trace ++ es) :
    Event.shown k i spk ∉ es := by
  have hbo := initTracker_base hd hd' hb
  have hok := run_trackerOk hbo h
  have hdv := hok.derivable hbo
  have htk := (run_reserved hbo h k d hk hc).2 i hi
  intro hmem
  have inv : ∀ es' : List (Event P T), w'.trace = w.trace ++ es' → (∀ e ∈ es', ¬ Visible e) → False := by
    intro es' h1 h2
    rw [hes] at h1
    rw [List.append_cancel_left h1] at hmem
    exact h2 _ hmem trivial
  cases a with
  | restart => exact hca trivial
  | crashIn => exact hca trivial
  | address cmd ok =>
    simp only [step] at hs
    rcases hr : runAddressCmd w.tracker cmd ok with _ | ⟨t, es2, e⟩
    · rw [hr] at hs; cases hs
    · rw [hr] at hs
      cases hs
      have hee : es2 = es := List.append_cancel_left hes
      subst hee
      rcases address_spec hr with ⟨-, h1, -⟩ | ⟨q, hq, -, ⟨h1, h2, -⟩ | ⟨-, h2, -⟩⟩ <;> simp only at *
      · rw [h1] at hmem; cases hmem
      · rw [h2] at hmem
        rcases List.mem_append.1 hmem with h3 | h3
        · exact store_invisible _ _ _ h3 trivial
        · have h4 := List.mem_singleton.1 h3
          injection h4 with e1 e2 e3
          subst e1
          rcases hq with ⟨-, hq⟩ | ⟨-, hq⟩
          · exact nextUnused_fresh hok.reach hdv hk hc hq (e2 ▸ htk)
          · have := revealNext_fresh hok.reach hdv hk hc hq
            have := htk.1
            omega
      · exact inv _ (by rw [h2]) (store_invisible _ _)
  | broadcast n ok =>
    simp only [step] at hs
    rcases hj : w.jobs[n]? with _ | ⟨f, _ | s⟩ <;> rw [hj] at hs <;> cases hs
    · exact inv [] (by simp) (by simp)
    · have := List.append_cancel_left hes
      rw [← this] at hmem
      simp at hmem
    · exact inv [] (by simp) (by simp)
  | syncElectrum scan o ok =>
    simp only [step] at hs
    rcases hr : syncElectrum w.tracker scan o ok with _ | ⟨t, es⟩ <;> rw [hr] at hs <;> cases hs
    exact inv _ rfl (syncElectrum_invisible hr)
  | syncEsplora scan o ok =>
    simp only [step] at hs
    rcases hr : syncEsplora w.tracker scan o ok with _ | ⟨t, es⟩ <;> rw [hr] at hs <;> cases hs
    exact inv _ rfl (syncEsplora_invisible hr)
  | sendFinish n o ok =>
    simp only [step] at hs
    rcases hj : w.jobs[n]? with _ | ⟨f, _ | _ | _⟩ <;> rw [hj] at hs
    · cases hs; exact inv [] (by simp) (by simp)
    · cases hs; exact inv [] (by simp) (by simp)
    · cases hs; exact inv [] (by simp) (by simp)
    · simp only at hs
      rcases hr : sendSucceeded env w.tracker f o ok with _ | ⟨t, es, e⟩ <;> rw [hr] at hs <;> cases hs
      obtain ⟨q, -, -, ⟨e, -, h2, -⟩ | ⟨cs, -, h2, -⟩⟩ := succeeded_spec hr <;> simp only at h2
      · exact inv _ rfl (by rw [h2]; simp)
      · exact inv _ rfl (by rw [h2]; exact store_invisible _ _)
  | sendPrepare luck value payee algo ok =>
    simp only [step] at hs
    rcases hr : sendPrepare env luck w.tracker value payee algo ok with _ | ⟨t, es, e⟩
    · rw [hr] at hs; cases hs
    · have htr : w'.trace = w.trace ++ es := by
        rw [hr] at hs
        cases e <;> cases hs <;> rfl
      refine inv es htr ?_
      obtain ⟨q, hq, ⟨-, h1, -⟩ | ⟨-, -, h1, -⟩ | ⟨-, -, h1, -⟩⟩ := prepare_spec hr <;> simp only at h1 <;> rw [h1]
      · simp
      · exact store_invisible _ _
      · exact store_invisible _ _

/-- **C54** when the network did not take a transaction, finishing the `Send` gives its change script back: it is unused
again, unless an output to it has been found; nothing else changes and nothing is written -/
theorem C54_broadcast_failure_frees (env : Env D Key Ak Sec XPrv Msg T) {base : Tracker Keychain D P T} {w w' : World D P T}
    (n : Nat) (o : Orders P T) (ok : Bool) (f : InFlight) (hj : w.jobs[n]? = some ⟨f, some false⟩)
    (hs : step env base w (.sendFinish n o ok) = some w') :
    w'.jobs = w.jobs.eraseIdx n ∧ w'.trace = w.trace ∧ w'.tracker.chainGraph = w.tracker.chainGraph ∧
      SameButMarks w.tracker.txoutIndex w'.tracker.txoutIndex ∧
      ∀ k i, f.change = some (k, i) →
        (∀ k' i', (k', i') ≠ (k, i) → w'.tracker.txoutIndex.inner.isUsed (toLex (k', i')) = w.tracker.txoutIndex.inner.isUsed (toLex (k', i'))) ∧
        (∀ spk, w.tracker.txoutIndex.inner.spkAtIndex (toLex (k, i)) = some spk →
          w.tracker.txoutIndex.inner.hasOutputs (toLex (k, i)) = false →
          w'.tracker.txoutIndex.inner.isUsed (toLex (k, i)) = false) := by
  simp only [step] at hs
  rw [hj] at hs
  cases hs
  refine ⟨rfl, rfl, ?_, ?_, ?_⟩
  · show (sendFailed w.tracker f).chainGraph = _
    unfold sendFailed
    rcases f.change with _ | ⟨k, i⟩ <;> rfl
  · show SameButMarks _ (sendFailed w.tracker f).txoutIndex
    unfold sendFailed
    rcases f.change with _ | ⟨k, i⟩
    · exact ⟨rfl, rfl, rfl, rfl, rfl, rfl, rfl⟩
    · obtain ⟨h1, h2, h3, h4⟩ := SpkIndex.unmarkUsed_fields w.tracker.txoutIndex.inner (toLex (k, i))
      exact ⟨rfl, rfl, rfl, h3, h4, h1, h2⟩
  · intro k i hf
    have he : (sendFailed w.tracker f).txoutIndex.inner = (w.tracker.txoutIndex.inner.unmarkUsed (toLex (k, i))).1 := by
      unfold sendFailed; rw [hf]; rfl
    refine ⟨fun k' i' hne => ?_, fun spk hsp ho => ?_⟩
    · show (sendFailed w.tracker f).txoutIndex.inner.isUsed _ = _
      rw [he]
      unfold SpkIndex.isUsed SpkIndex.unmarkUsed
      split
      · rfl
      split
      · rfl
      simp only
      rw [OSet.mem_add]
      have hne' : (toLex (k', i') : Keychain ×ₗ Nat) ≠ toLex (k, i) := hne
      simp only [hne', decide_false, Bool.false_or]
    · show (sendFailed w.tracker f).txoutIndex.inner.isUsed _ = _
      rw [he]
      unfold SpkIndex.isUsed SpkIndex.unmarkUsed
      unfold SpkIndex.spkAtIndex at hsp
      rw [if_neg (by unfold OMap.contains; rw [hsp]; simp), if_neg (by rw [ho]; decide)]
      simp [OSet.mem_add]

theorem tx_txouts_nodup (x : Tx) : (x.txouts.map Prod.fst).Nodup := by
  have h1 : x.txouts.map Prod.fst = (List.range x.output.length).map (fun n => (⟨x.txid, Fin.ofNat _ n⟩ : OutPoint)) := by
    apply List.ext_getElem
    · simp [Tx.txouts]
    · intro n h1 h2
      simp [Tx.txouts]
  rw [h1]
  refine List.Nodup.map_on ?_ List.nodup_range
  intro a ha b hb he
  have ha := List.mem_range.1 ha
  have hb := List.mem_range.1 hb
  have hs := x.small
  injection he with _ h2
  have h3 := congrArg Fin.val h2
  simp only [Fin.ofNat] at h3
  rw [Nat.mod_eq_of_lt (by omega), Nat.mod_eq_of_lt (by omega)] at h3
  exact h3

theorem insertTxPreview_new {g : TxGraph T} {x : T} (h : g.getTx (asTx x).txid = none) :
    (g.insertTxPreview x).txouts = (asTx x).txouts := by
  have h1 : (OMap.empty.insert (asTx x).txid (TxNode.whole x)).entries = [((asTx x).txid, TxNode.whole x)] := rfl
  unfold TxGraph.insertTxPreview TxGraph.determineAdditions
  rw [h1]
  show (TxGraph.determineNode g Additions.empty _).txouts = _
  unfold TxGraph.determineNode
  simp only [h, Option.isSome_none, Bool.false_eq_true, if_false]
  have h2 : (⟨OSet.add (OMap.empty : OSet T) x, OMap.empty⟩ : Additions T).txouts = (asTx x).txouts := by
    show (List.flatMap _ [x]) ++ [] = _
    simp
  unfold TxGraph.getTx at h
  rcases hg : g.txs.get (asTx x).txid with _ | (y | p)
  · exact h2
  · rw [hg] at h; cases h
  · exact h2

/-- **C54** when the network took a transaction the wallet had not seen, finishing the `Send` puts it into the chain as
unconfirmed and counts all its outputs to revealed scripts of the wallet, in particular the change; if it cannot be inserted
(it, or a transaction it conflicts with, is confirmed), nothing changes -/
theorem C54_broadcast_success (env : Env D Key Ak Sec XPrv Msg T) {t : Tracker Keychain D P T} (ht : t.Reachable)
    (hd : AllDerivable t.txoutIndex) (f : InFlight) (o : Orders P T) (ok : Bool) (r) (h : sendSucceeded env t f o ok = some r)
    (hnew : t.chainGraph.graph.getTx (asTx (env.toT f.tx)).txid = none) :
    ((r.2.2 = .ok () ∨ r.2.2 = .error .persist) ∧
      r.1.chainGraph.chain.txPosition (asTx (env.toT f.tx)).txid = some (ChainPosition.maxOrd .unconfirmed) ∧
      r.1.chainGraph.graph.getTx (asTx (env.toT f.tx)).txid = some (env.toT f.tx) ∧
      ∀ (v : Vout) out k i, (asTx (env.toT f.tx)).output[v.val]? = some out → Knows t k i out.spk →
        r.1.txoutIndex.inner.txout ⟨(asTx (env.toT f.tx)).txid, v⟩ = some (toLex (k, i), out)) ∨
    ((r.2.2 = .error .alreadyConfirmed ∨ r.2.2 = .error .conflictConfirmed) ∧ r.1 = t ∧ r.2.1 = []) := by
  obtain ⟨hreach, hcg⟩ := tracker_parts ht
  have hpers : ∀ cs : KeychainChangeSet Keychain P T, (if (store cs ok).2 then Except.ok () else Except.error CmdErr.persist) = .ok () ∨
      (if (store cs ok).2 then Except.ok () else Except.error CmdErr.persist) = .error .persist := by
    intro cs; cases (store cs ok).2
    · exact .inr rfl
    · exact .inl rfl
  unfold sendSucceeded at h
  cases hq : t.insertTx (env.toT f.tx) (ChainPosition.maxOrd .unconfirmed) o with
  | none => rw [hq] at h; cases h
  | some q =>
    obtain ⟨t', e | cs⟩ := q
    · rw [hq] at h
      have ht' : t' = t := by
        unfold Tracker.insertTx Tracker.applyOk at hq
        cases hp : t.insertTxPreview (env.toT f.tx) (ChainPosition.maxOrd .unconfirmed) o with
        | panic => rw [hp] at hq; cases hq
        | err e => rw [hp] at hq; cases hq; rfl
        | ok cs =>
          rw [hp] at hq
          rw [Option.map_eq_some_iff] at hq
          obtain ⟨_, _, h2⟩ := hq
          cases h2
      subst ht'
      right
      cases e with
      | chain e =>
        cases e with
        | txTooHigh => cases h
        | txMovedUnexpectedly => cases h; exact ⟨.inl rfl, rfl, rfl⟩
      | unresolvableConflict e => cases h; exact ⟨.inr rfl, rfl, rfl⟩
    · rw [hq] at h
      cases h
      left
      refine ⟨hpers cs, ?_⟩
      unfold Tracker.insertTx Tracker.applyOk at hq
      unfold Tracker.insertTxPreview at hq
      cases hp : t.chainGraph.insertTxPreview (env.toT f.tx) (ChainPosition.maxOrd .unconfirmed) o with
      | panic => rw [hp] at hq; cases hq
      | err e => rw [hp] at hq; cases hq
      | ok cs' =>
        rw [hp] at hq
        rw [Option.map_eq_some_iff] at hq
        obtain ⟨t1, h1, h2⟩ := hq
        cases h2
        unfold Tracker.applyChangeset at h1
        cases ha : t.txoutIndex.applyAdditions (OMap.empty : DerivationAdditions Keychain) with
        | none => simp only [KeychainChangeSet.ofChainGraph, ha] at h1; cases h1
        | some idx =>
          simp only [KeychainChangeSet.ofChainGraph, ha, Option.bind_eq_bind, Option.bind_some] at h1
          have hidx : idx = t.txoutIndex := by
            rw [KeychainIndex.applyAdditions_eq] at ha
            cases ha; rfl
          subst hidx
          cases hsc : t.txoutIndex.scan cs'.graph.txouts with
          | none => rw [hsc] at h1; cases h1
          | some r1 =>
            rw [hsc] at h1
            cases h1
            have hins : t.chainGraph.insertTx (env.toT f.tx) (ChainPosition.maxOrd .unconfirmed) o = (t.chainGraph.applyChangeset cs', .ok cs') := by
              unfold ChainGraph.insertTx ChainGraph.applyOk
              rw [hp]
            have h26 := C26_insert_tx t.chainGraph hcg (env.toT f.tx) (ChainPosition.maxOrd .unconfirmed) o
            simp only [hins] at h26
            have hplain : ∃ cs0, t.chainGraph.chain.insertTxPreview (asTx (env.toT f.tx)).txid (ChainPosition.maxOrd .unconfirmed) o.chain = .ok cs0 ∧
                cs'.graph = t.chainGraph.graph.insertTxPreview (env.toT f.tx) := by
              unfold ChainGraph.insertTxPreview at hp
              cases hc0 : t.chainGraph.chain.insertTxPreview (asTx (env.toT f.tx)).txid (ChainPosition.maxOrd .unconfirmed) o.chain with
              | panic => rw [hc0] at hp; cases hp
              | err e => rw [hc0] at hp; cases hp
              | ok cs0 =>
                rw [hc0] at hp
                simp only at hp
                refine ⟨cs0, rfl, ?_⟩
                unfold ChainGraph.fixConflicts at hp
                rcases hl : t.chainGraph.chainConflicts ⟨cs0, t.chainGraph.graph.insertTxPreview (env.toT f.tx)⟩ o.spend
                    (t.chainGraph.newTxids ⟨cs0, t.chainGraph.graph.insertTxPreview (env.toT f.tx)⟩) with _ | l
                · rw [hl] at hp; cases hp
                · rw [hl] at hp
                  simp only at hp
                  rcases hrs : ChainGraph.resolve l cs0.txids with e | tx
                  · rw [hrs] at hp; cases hp
                  · rw [hrs] at hp; cases hp; rfl
            obtain ⟨cs0, hc0, hgr⟩ := hplain
            have hpl : t.chainGraph.chain.insertTx (asTx (env.toT f.tx)).txid (ChainPosition.maxOrd .unconfirmed) o.chain
                = (t.chainGraph.chain.applyChangeset cs0, .ok cs0) := by
              unfold SparseChain.insertTx SparseChain.applyOk
              rw [hc0]
            rw [hpl] at h26
            obtain ⟨-, h26⟩ := h26
            obtain ⟨-, h26, -⟩ := h26 cs0 rfl
            obtain ⟨g1, -, -, g3⟩ := h26 cs' rfl
            have hinv := ChainGraph.reachable_inv hcg
            refine ⟨?_, ?_, ?_⟩
            · show (t.chainGraph.applyChangeset cs').chain.txPosition _ = _
              rw [g3 _ (fun hx => hx.1 hx.2.1)]
              obtain ⟨hdd, -⟩ := SparseChain.insertTxPreview_ok hc0
              exact (SparseChain.determine_pos hinv.cons hdd _).1 _ (OMap.get_insert_self _ _ _)
            · show (t.chainGraph.applyChangeset cs').graph.getTx _ = _
              rw [g1, TxGraph.insertTx_getTx, hnew]
              simp
            · intro v out k i hout ⟨⟨j, hj1, hj2⟩, hk2⟩
              have hi := KeychainIndex.reachable_inv hreach hd
              obtain ⟨d, e1, e2, e3⟩ := KeychainIndex.stored_known hi hk2
              rw [hgr, insertTxPreview_new hnew] at hsc
              refine (KeychainIndex.scan_finds hsc hi hd (tx_txouts_nodup _) (o := ⟨(asTx (env.toT f.tx)).txid, v⟩) (x := out) ?_ e1 ?_ e2 e3).1
              · rw [mem_txouts]; exact ⟨rfl, hout⟩
              · have : Spec.numRevealed t.txoutIndex k = j + 1 := by unfold Spec.numRevealed; rw [hj1]
                omega

/-! ## concrete runs -/

section Examples

/-- transactions: one that funds the first external script, a payment of it with change, one without change, another funding,
a coinbase -/
structure CliTx where
  num : Fin 5
deriving DecidableEq, Repr

instance : LinearOrder CliTx := LinearOrder.lift' CliTx.num (fun a b h => by cases a; cases b; simp_all)
def cliId (n : Fin 5) : Txid := Fin.ofNat _ (n.val + 1)
def cliTx (n : Fin 5) : Tx :=
  match n with
  | 0 => ⟨cliId 0, [⟨77, 0⟩], [⟨100000, 0⟩], by decide⟩
  | 1 => ⟨cliId 1, [⟨cliId 0, 0⟩], [⟨40000, 1000⟩, ⟨59692, 1⟩], by decide⟩
  | 2 => ⟨cliId 2, [⟨cliId 0, 0⟩], [⟨99700, 1000⟩], by decide⟩
  | 3 => ⟨cliId 3, [⟨78, 0⟩], [⟨100000, 4⟩], by decide⟩
  | 4 => ⟨cliId 4, [⟨0, Fin.last _⟩], [⟨50000, 0⟩], by decide⟩
instance : AsTransaction CliTx := ⟨fun t => cliTx t.num⟩
instance : LawfulTx CliTx where
  txid_inj := by
    intro ⟨a⟩ ⟨b⟩ h
    have : a = b := by
      revert h; revert a b; decide
    rw [this]

/-- key spends; every key can be signed for -/
def exEnv : Env DemoDesc Nat Nat Nat Path Unit CliTx where
  lib := exLib
  canDerive _ _ := some []
  trAt d i := ⟨4 * i + d.base.val, []⟩
  dustValue _ := 300
  scriptLen _ := 34
  keymap _ := some (.xprv [0])
  assetKeys := [0]
  crypto _ _ _ := exCrypto
  toT b := if b.output.length = 2 then ⟨1⟩ else ⟨2⟩

abbrev CliTracker := Tracker Keychain DemoDesc TxHeight CliTx
def exInit : Option CliTracker := initTracker 10 ⟨true, 0⟩ (some ⟨true, 1⟩)
def exBase : CliTracker := exInit.getD Tracker.empty
theorem exBase_init : initTracker 10 (⟨true, 0⟩ : DemoDesc) (some ⟨true, 1⟩) = some exBase := by
  have h : exInit.isSome = true := by decide +kernel
  unfold exBase
  show exInit = _
  cases hx : exInit with
  | none => rw [hx] at h; cases h
  | some t => rfl

def exLuck : Luck := ⟨soId, id, 10, HashOrder.id _⟩
abbrev oC : Orders TxHeight CliTx := Orders.id _ _
/-- what a sync finds: the funding transaction -/
def exFund : KeychainScan Keychain TxHeight CliTx := ⟨(ChainGraph.empty.insertTx (⟨0⟩ : CliTx) TxHeight.unconfirmed oC).1, OMap.empty⟩
def exSend (value : Nat) : Act TxHeight CliTx := .sendPrepare exLuck value 1000 .largestFirst true

def runActs (w : World DemoDesc TxHeight CliTx) : List (Act TxHeight CliTx) → Option (World DemoDesc TxHeight CliTx)
  | [] => some w
  | a :: l => (step exEnv exBase w a).bind (runActs · l)
def exStart : World DemoDesc TxHeight CliTx := ⟨exBase, [], []⟩

theorem runActs_run {l : List (Act TxHeight CliTx)} {w w' : World DemoDesc TxHeight CliTx} (h : Run exEnv exBase w)
    (hr : runActs w l = some w') : Run exEnv exBase w' := by
  induction l generalizing w with
  | nil => cases hr; exact h
  | cons a l ih =>
    unfold runActs at hr
    rcases hs : step exEnv exBase w a with _ | w1
    · rw [hs] at hr; cases hr
    · rw [hs] at hr; exact ih (.step a h hs) hr

/-- the write of the action is not refused, and if it is a `Send` it has change -/
def carefulStep (w w' : World DemoDesc TxHeight CliTx) : Act TxHeight CliTx → Bool
  | .address _ ok => ok
  | .sendPrepare _ _ _ _ ok => ok && (match w'.jobs.getLast? with
    | some ⟨f, none⟩ => f.change.isSome && decide (w'.jobs = w.jobs ++ [⟨f, none⟩])
    | _ => false)
  | .sendFinish _ _ ok => ok
  | .syncEsplora _ _ ok => ok
  | _ => true

def runCareful (w : World DemoDesc TxHeight CliTx) : List (Act TxHeight CliTx) → Bool
  | [] => true
  | a :: l => match step exEnv exBase w a with
    | none => false
    | some w' => carefulStep w w' a && runCareful w' l

theorem runCareful_lossless {l : List (Act TxHeight CliTx)} {w : World DemoDesc TxHeight CliTx} (h : LosslessRun exEnv exBase w)
    (hr : runCareful w l = true) : ∃ w', runActs w l = some w' ∧ LosslessRun exEnv exBase w' := by
  induction l generalizing w with
  | nil => exact ⟨w, rfl, h⟩
  | cons a l ih =>
    unfold runCareful at hr
    rcases hs : step exEnv exBase w a with _ | w1
    · rw [hs] at hr; cases hr
    · rw [hs] at hr
      simp only [Bool.and_eq_true] at hr
      obtain ⟨h1, h2⟩ := hr
      have h3 : LosslessRun exEnv exBase w1 := by
        refine .step a h hs ?_
        by_cases hc : Crashes a
        · exact .inr hc
        · refine .inl (C54_loss_cases exEnv (demo_derivable _) (fun d _ => demo_derivable d) exBase_init h.run a hs hc ?_)
          intro hm
          cases a with
          | address _ ok => cases hm; cases h1
          | sendFinish _ _ ok => cases hm; cases h1
          | syncEsplora _ _ ok => cases hm; cases h1
          | sendPrepare luck value payee algo ok =>
            simp only [carefulStep, Bool.and_eq_true] at h1
            obtain ⟨h1, h4⟩ := h1
            rcases hm with hm | hm
            · rw [h1] at hm; cases hm
            · split at h4
              · rename_i f _
                simp only [Bool.and_eq_true, decide_eq_true_eq] at h4
                exact hm ⟨f, h4.2, h4.1⟩
              · cases h4
          | broadcast => exact hm
          | syncElectrum => exact hm
          | restart => exact hm
          | crashIn => exact hm
      obtain ⟨w', h4, h5⟩ := ih h3 h2
      refine ⟨w', ?_, h5⟩
      unfold runActs
      rw [hs]
      exact h4

/-- an address is shown and funded, a payment with change is broadcast and recorded; a second payment is interrupted by a crash
after its broadcast -/
def exActs : List (Act TxHeight CliTx) :=
  [.address .next true, .syncElectrum exFund oC true, exSend 40000, .broadcast 0 true, .sendFinish 0 oC true,
   exSend 20000, .crashIn (.broadcast 0 true) 1, .address .new true]

example : ∃ w, LosslessRun exEnv exBase w ∧ runActs exStart exActs = some w ∧ w.trace.length = 10 ∧
    w.tracker.txoutIndex.lastRevealedIndex .internal = some 1 := by
  obtain ⟨w, h1, h2⟩ := runCareful_lossless (l := exActs) (w := exStart) .init (by decide +kernel)
  have h3 : (match runActs exStart exActs with
    | some w => decide (w.trace.length = 10) && decide (w.tracker.txoutIndex.lastRevealedIndex .internal = some 1)
    | none => false) = true := by decide +kernel
  rw [h1] at h3
  simp only [Bool.and_eq_true, decide_eq_true_eq] at h3
  exact ⟨w, h2, h1, h3.1, h3.2⟩

/-- two payments at the same time: their change goes to different scripts (`C54_change_distinct`) -/
def exTwo : List (Act TxHeight CliTx) := [.address .next true, .syncElectrum exFund oC true, exSend 40000, exSend 30000]

example : ∃ w, Run exEnv exBase w ∧ pendingChange .internal w.jobs = [0, 1] ∧
    w.tracker.txoutIndex.keychains.get .internal = some ⟨true, 1⟩ ∧
    numRevealed w.tracker.txoutIndex .internal ≤ cap (⟨true, 1⟩ : DemoDesc) := by
  have h3 : (match runActs exStart exTwo with
    | some w => decide (pendingChange .internal w.jobs = [0, 1]) && decide (w.tracker.txoutIndex.keychains.get .internal = some ⟨true, 1⟩)
        && decide (numRevealed w.tracker.txoutIndex .internal ≤ cap (⟨true, 1⟩ : DemoDesc))
    | none => false) = true := by decide +kernel
  rcases hr : runActs exStart exTwo with _ | w <;> rw [hr] at h3
  · cases h3
  · simp only [Bool.and_eq_true, decide_eq_true_eq] at h3
    exact ⟨w, runActs_run .init hr, h3.1.1, h3.1.2, h3.2⟩

/-- **C54** the inputs are not reserved: two payments prepared at the same time spend the same output, and both are handed to
the network -/
theorem C54_inputs_not_reserved : ∃ w : World DemoDesc TxHeight CliTx, Run exEnv exBase w ∧ ∃ j j' : Job,
    w.jobs = [j, j'] ∧ j.sent = some true ∧ j'.sent = some true ∧
    j.flight.tx.input.map TxIn.previousOutput = [⟨cliId 0, 0⟩] ∧ j'.flight.tx.input.map TxIn.previousOutput = [⟨cliId 0, 0⟩] := by
  have h3 : (match runActs exStart (exTwo ++ [.broadcast 0 true, .broadcast 1 true]) with
    | some ⟨_, [j, j'], _⟩ => decide (j.sent = some true ∧ j'.sent = some true ∧
        j.flight.tx.input.map TxIn.previousOutput = [⟨cliId 0, 0⟩] ∧ j'.flight.tx.input.map TxIn.previousOutput = [⟨cliId 0, 0⟩])
    | _ => false) = true := by decide +kernel
  rcases hr : runActs exStart (exTwo ++ [.broadcast 0 true, .broadcast 1 true]) with _ | ⟨t, jobs, tr⟩ <;> rw [hr] at h3
  · cases h3
  · match jobs, h3, hr with
    | [j, j'], h3, hr => exact ⟨_, runActs_run .init hr, j, j', rfl, by simpa using h3⟩

theorem getElem?_split {α : Type} {l : List α} {n : Nat} {e : α} (h : l[n]? = some e) : l = l.take n ++ e :: l.drop (n + 1) := by
  obtain ⟨hn, he⟩ := List.getElem?_eq_some_iff.1 h
  rw [← he, List.getElem_cons_drop, List.take_append_drop]

/-- the address shown at a point of the trace -/
def shownAt (tr : List (Event TxHeight CliTx)) (n : Nat) : Option (Keychain × Nat × Script) :=
  match tr[n]? with
  | some (.shown k i spk) => some (k, i, spk)
  | _ => none

/-- the outputs of the transaction handed to the network at a point of the trace -/
def sentAt (tr : List (Event TxHeight CliTx)) (n : Nat) : Option (List TxOut) :=
  match tr[n]? with
  | some (.broadcast tx _) => some tx.output
  | _ => none

theorem exBase_nothing (k i spk) : ¬ Knows exBase k i spk := by
  rintro ⟨⟨j, h, -⟩, -⟩
  have : exBase.txoutIndex.lastRevealedIndex k = none := by cases k <;> decide +kernel
  rw [this] at h; cases h

/-- **C54** a failed write is not repeated: asking again after it shows the address although the database has nothing -/
theorem C54_retry_shows_unstored : ∃ w : World DemoDesc TxHeight CliTx, Run exEnv exBase w ∧ ¬ Recoverable exBase w.trace ∧
    runActs exStart [.address .next false, .address .next true] = some w := by
  have h3 : (match runActs exStart [.address .next false, .address .next true] with
    | some w => decide (shownAt w.trace 1 = some (.external, 0, 0)) && (diskOf (w.trace.take 1)).isEmpty
    | none => false) = true := by decide +kernel
  rcases hr : runActs exStart [.address .next false, .address .next true] with _ | w <;> rw [hr] at h3
  · cases h3
  · simp only [Bool.and_eq_true, decide_eq_true_eq, List.isEmpty_iff] at h3
    refine ⟨w, runActs_run .init hr, ?_, rfl⟩
    obtain ⟨h1, h2⟩ := h3
    unfold shownAt at h1
    split at h1
    · rename_i k i spk he
      cases h1
      intro hrec
      obtain ⟨t', e1, e2⟩ := hrec.1 _ _ _ _ _ (getElem?_split he)
      rw [h2] at e1
      cases e1
      exact exBase_nothing _ _ _ e2
    · cases h1

/-- a payment that fails for lack of funds, and then one that succeeds -/
def exLost : List (Act TxHeight CliTx) :=
  [.address .next true, .syncElectrum exFund oC true, exSend 1000000, exSend 40000, .broadcast 0 true]

/-- **C54** a `Send` that fails reveals the next change script without writing it; a later `Send` pays its change there, and the
transaction is handed to the network although the database does not know the script.  Even after the transaction is recorded, a
new start does not find the change: the money is missing from the wallet. -/
theorem C54_failed_send_loses_change : ∃ w w1 w2 : World DemoDesc TxHeight CliTx, Run exEnv exBase w ∧
    runActs exStart exLost = some w ∧ ¬ Recoverable exBase w.trace ∧
    runActs w [.sendFinish 0 oC true] = some w1 ∧ runActs w1 [.restart] = some w2 ∧
    (w1.tracker.fullUtxos soId).map (fun e => (e.1, e.2.txout.value)) = [((.internal, 0), 59692)] ∧
    w2.tracker.fullUtxos soId = [] := by
  have h3 : (match runActs exStart exLost with
    | some w => decide (sentAt w.trace 3 = some [⟨40000, 1000⟩, ⟨59692, 1⟩]) &&
        (match exBase.replay (diskOf (w.trace.take 3)) with
        | some t => decide (t.txoutIndex.lastRevealedIndex .internal = none) && decide (t.txoutIndex.lastRevealedIndex .external = some 0)
            && decide (t.txoutIndex.inner.spkAtIndex (toLex (.external, 0)) = some 0)
        | none => false) &&
        (match runActs w [.sendFinish 0 oC true] with
        | some w1 => decide ((w1.tracker.fullUtxos soId).map (fun e => (e.1, e.2.txout.value)) = [((.internal, 0), 59692)]) &&
          (match runActs w1 [.restart] with
          | some w2 => (w2.tracker.fullUtxos soId).isEmpty
          | none => false)
        | none => false)
    | none => false) = true := by decide +kernel
  rcases hr : runActs exStart exLost with _ | w <;> rw [hr] at h3
  · cases h3
  simp only [Bool.and_eq_true, decide_eq_true_eq] at h3
  obtain ⟨⟨h1, h2⟩, h4⟩ := h3
  rcases hw1 : runActs w [.sendFinish 0 oC true] with _ | w1 <;> rw [hw1] at h4
  · cases h4
  simp only [Bool.and_eq_true, decide_eq_true_eq] at h4
  obtain ⟨h4, h5⟩ := h4
  rcases hw2 : runActs w1 [.restart] with _ | w2 <;> rw [hw2] at h5
  · cases h5
  simp only [List.isEmpty_iff] at h5
  refine ⟨w, w1, w2, runActs_run .init hr, rfl, ?_, hw1, hw2, h4, h5⟩
  unfold sentAt at h1
  split at h1
  · rename_i tx ok he
    intro hrec
    obtain ⟨t', e1, e2⟩ := hrec.2 _ _ _ _ (getElem?_split he)
    rw [e1] at h2
    simp only [Bool.and_eq_true, decide_eq_true_eq] at h2
    obtain ⟨⟨h2, h6⟩, h7⟩ := h2
    obtain ⟨k, i, ⟨j, hj, hij⟩, hk⟩ := e2 ⟨59692, 1⟩ (by rw [Option.some.inj h1]; simp)
    cases k with
    | internal => rw [h2] at hj; cases hj
    | external =>
      rw [h6] at hj
      cases hj
      have : i = 0 := by omega
      subst this
      rw [h7] at hk
      cases hk
  · cases h1

/-- a failed broadcast gives the change script back (`C54_broadcast_failure_frees`) -/
example : (match runActs exStart [.address .next true, .syncElectrum exFund oC true, exSend 40000, .broadcast 0 false] with
    | some w => (match (w.jobs[0]? : Option Job) with
      | some ⟨f, some false⟩ => decide (f.change = some (.internal, 0))
      | _ => false) && w.tracker.txoutIndex.inner.isUsed (toLex (.internal, 0)) &&
        (match runActs w [.sendFinish 0 oC true] with
        | some w' => !w'.tracker.txoutIndex.inner.isUsed (toLex (.internal, 0))
        | none => false)
    | none => false) = true := by decide +kernel

/-- the hypotheses of `C54_send_lossless_if_unused`: a first `Send` failed, its change script is still unused -/
example : (match runActs exStart [.address .next true, .syncElectrum exFund oC true, exSend 1000000] with
    | some w => decide (internalKeychain w.tracker = .internal) && decide (0 < numRevealed w.tracker.txoutIndex .internal)
        && !w.tracker.txoutIndex.inner.isUsed (toLex (.internal, 0)) && (runActs w [exSend 40000]).isSome
    | none => false) = true := by decide +kernel

/-- a write that fails (`C54_persist_failure_silent`) -/
example : (match runActs exStart [.address .next false] with
    | some w => match w.trace with
      | [.storeFailed _] => true
      | _ => false
    | none => false) = true := by decide +kernel

theorem initTracker_reachable {cp : Nat} {ext : D} {int : Option D} {base : Tracker Keychain D P T}
    (h : initTracker cp ext int = some base) : base.Reachable := by
  unfold initTracker at h
  simp only at h
  have add : ∀ (t t' : Tracker Keychain D P T) k d, t.Reachable → t.addKeychain k d = some t' → t'.Reachable := by
    intro t t' k d hb h
    unfold Tracker.addKeychain at h
    rw [Option.map_eq_some_iff] at h
    obtain ⟨i, hi, rfl⟩ := h
    exact Tracker.Reachable.index (.addKeychain k d) (i, OMap.empty) hb (by simp only [KeychainIndex.step, hi, Option.map_some])
  cases h1 : ((Tracker.empty : Tracker Keychain D P T).setCheckpointLimit (some cp)).addKeychain .external ext with
  | none => rw [h1] at h; cases h
  | some t =>
    rw [h1] at h
    have h2 := add _ _ _ _ (.setCheckpointLimit _ .empty) h1
    cases int with
    | none => cases h; exact h2
    | some d => exact add _ _ _ _ h2 h

/-- the wallet before the last step of a payment -/
def exPaidOps : List (Tracker.Op Keychain TxHeight CliTx) :=
  [.nextUnusedSpk .external, .applyUpdate exFund oC, .nextUnusedSpk .internal, .markUsed .internal 0]
def exPaid : CliTracker := ((exBase.runFrom exPaidOps).map Prod.fst).getD exBase
def exFlight : InFlight :=
  ⟨⟨2, 0, [⟨⟨cliId 0, 0⟩, 0xFFFFFFFD, [List.replicate 64 1]⟩], [⟨40000, 1000⟩, ⟨59692, 1⟩]⟩, some (.internal, 0)⟩

theorem exPaid_reachable : exPaid.Reachable := by
  have h : (exBase.runFrom exPaidOps).isSome = true := by decide +kernel
  rcases hr : exBase.runFrom exPaidOps with _ | r
  · rw [hr] at h; cases h
  · have : exPaid = r.1 := by unfold exPaid; rw [hr]; rfl
    rw [this]
    refine tracker_run_reachable (initTracker_reachable exBase_init) exPaidOps ?_ hr
    intro op hop
    simp only [exPaidOps, List.mem_cons, List.not_mem_nil, or_false] at hop
    rcases hop with rfl | rfl | rfl | rfl <;> first | trivial | exact ChainGraph.Reachable.insertTx _ _ _ .empty

/-- it is the one the commands lead to, and meets the hypotheses of `C54_broadcast_success` -/
example : (match runActs exStart [.address .next true, .syncElectrum exFund oC true, exSend 40000, .broadcast 0 true] with
    | some w => decide (w.jobs = [⟨exFlight, some true⟩]) && decide (w.tracker.txoutIndex.inner.unused = exPaid.txoutIndex.inner.unused)
    | none => false) = true ∧
    exPaid.chainGraph.graph.getTx (asTx (exEnv.toT exFlight.tx)).txid = none ∧
    (asTx (exEnv.toT exFlight.tx)).output = exFlight.tx.output ∧
    (match sendSucceeded exEnv exPaid exFlight oC true with
      | some (t, _, .ok _) => (t.fullUtxos soId).length
      | _ => 0) = 1 ∧
    (exPaid.txoutIndex.lastRevealedIndex .internal = some 0 ∧ exPaid.txoutIndex.inner.spkAtIndex (toLex (.internal, 0)) = some 1) := by
  decide +kernel

end Examples

end Verif.Cli
