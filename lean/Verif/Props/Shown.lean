import Verif.Props.Locks
import Verif.Lemmas.Process2

/-!
# C54 and C84: the addresses shown are addresses of the wallet, in every run
-/

set_option linter.unusedSectionVars false

namespace Verif.Props
open Verif Verif.Cli Verif.Spec

section
variable {D Key Ak Sec XPrv Msg P T : Type}
variable [DescriptorOps D] [DecidableEq D] [LinearOrder P] [ChainPosition P] [LawfulChainPosition P] [LinearOrder T]
  [AsTransaction T] [LawfulTx T] [DecidableEq Key]

/-- script `spk` is the one that the external descriptor of the tracker derives at index `i` -/
def OfExternal (base : Tracker Keychain D P T) (i : Nat) (spk : Script) : Prop :=
  ∃ d, base.txoutIndex.keychains.get .external = some d ∧ spkAt d i = some spk ∧ i ≤ cap d

theorem ofExternal_of_knows {base t : Tracker Keychain D P T} (hb : BaseOk base) (ht : TrackerOk base t) {i : Nat} {spk : Script}
    (h : t.txoutIndex.inner.spkAtIndex (toLex (Keychain.external, i)) = some spk) : OfExternal base i spk := by
  have hst : Spec.stored t.txoutIndex Keychain.external i = some spk := h
  cases hk : t.txoutIndex.keychains.get Keychain.external with
  | none => rw [C33_unknown_keychain_empty ht.reach (ht.derivable hb) _ hk] at hst; cases hst
  | some d =>
    obtain ⟨n, h1, h2, -⟩ := C33_stored_contiguous ht.reach (ht.derivable hb) _ d hk
    rw [h1] at hst
    split_ifs at hst with hi
    exact ⟨d, by rw [← ht.kc]; exact hk, hst, by omega⟩

theorem shown_store (cs : KeychainChangeSet Keychain P T) (ok : Bool) (k : Keychain) (i : Nat) (spk : Script) :
    Event.shown k i spk ∉ (store cs ok).1 := fun h => store_invisible cs ok _ h trivial

theorem step_shown (env : Env D Key Ak Sec XPrv Msg T) {base : Tracker Keychain D P T} (hb : BaseOk base) {w : World D P T}
    (ht : TrackerOk base w.tracker) (a : Act P T) {w' : World D P T} (hs : step env base w a = some w') (k : Keychain) (i : Nat)
    (spk : Script) (hm : Event.shown k i spk ∈ w'.trace) :
    Event.shown k i spk ∈ w.trace ∨ k = .external ∧ OfExternal base i spk := by
  induction a generalizing w' with
  | address cmd ok =>
    have hok := step_trackerOk hb ht hs
    simp only [Cli.step] at hs
    rcases hr : runAddressCmd w.tracker cmd ok with _ | ⟨t, es, e⟩
    · rw [hr] at hs; cases hs
    · rw [hr] at hs
      cases hs
      rcases List.mem_append.1 hm with hm | hm
      · exact .inl hm
      rcases address_spec hr with ⟨-, h1, -⟩ | ⟨q, h0, ht1, ⟨h1, h2, -⟩ | ⟨-, h2, -⟩⟩ <;> simp only at *
      · rw [h1] at hm; cases hm
      · rw [h2] at hm
        rcases List.mem_append.1 hm with h3 | h3
        · exact absurd h3 (shown_store _ _ _ _ _)
        · rw [List.mem_singleton] at h3
          cases h3
          have hk : Knows ({ w.tracker with txoutIndex := q.1 } : Tracker Keychain D P T) .external q.2.1.1 q.2.1.2 := by
            rcases h0 with ⟨-, h1⟩ | ⟨-, h1⟩
            · exact nextUnused_knows ht.reach (ht.derivable hb) h1
            · exact revealNext_knows ht.reach (ht.derivable hb) h1
          rw [ht1] at hok
          exact .inr ⟨rfl, ofExternal_of_knows hb hok hk.2⟩
      · rw [h2] at hm; exact absurd hm (shown_store _ _ _ _ _)
  | broadcast n ok =>
    simp only [Cli.step] at hs
    rcases hj : w.jobs[n]? with _ | ⟨f, _ | s⟩ <;> rw [hj] at hs <;> cases hs
    · exact .inl hm
    · rcases List.mem_append.1 hm with hm | hm
      · exact .inl hm
      · simp at hm
    · exact .inl hm
  | syncElectrum scan o ok =>
    simp only [Cli.step] at hs
    rcases hr : syncElectrum w.tracker scan o ok with _ | ⟨t, es⟩ <;> rw [hr] at hs <;> cases hs
    rcases List.mem_append.1 hm with hm | hm
    · exact .inl hm
    · exact absurd trivial (syncElectrum_invisible hr _ hm)
  | syncEsplora scan o ok =>
    simp only [Cli.step] at hs
    rcases hr : syncEsplora w.tracker scan o ok with _ | ⟨t, es⟩ <;> rw [hr] at hs <;> cases hs
    rcases List.mem_append.1 hm with hm | hm
    · exact .inl hm
    · exact absurd trivial (syncEsplora_invisible hr _ hm)
  | sendFinish n o ok =>
    simp only [Cli.step] at hs
    rcases hj : w.jobs[n]? with _ | ⟨f, _ | _ | _⟩ <;> rw [hj] at hs
    · cases hs; exact .inl hm
    · cases hs; exact .inl hm
    · cases hs; exact .inl hm
    · simp only at hs
      rcases hr : sendSucceeded env w.tracker f o ok with _ | ⟨t, es, e⟩ <;> rw [hr] at hs <;> cases hs
      rcases List.mem_append.1 hm with hm | hm
      · exact .inl hm
      obtain ⟨q, -, -, ⟨e, -, h2, -⟩ | ⟨cs, -, h2, -⟩⟩ := succeeded_spec hr <;> simp only at h2 <;> rw [h2] at hm
      · cases hm
      · exact absurd hm (shown_store _ _ _ _ _)
  | sendPrepare luck value payee algo ok =>
    simp only [Cli.step] at hs
    rcases hr : sendPrepare env luck w.tracker value payee algo ok with _ | ⟨t, es, e | f⟩ <;> rw [hr] at hs <;> cases hs
    all_goals
      rcases List.mem_append.1 hm with hm | hm
      · exact .inl hm
      obtain ⟨q, hq, ⟨-, h1, -⟩ | ⟨-, -, h1, -⟩ | ⟨-, -, h1, -⟩⟩ := prepare_spec hr <;> simp only at h1 <;> rw [h1] at hm
      · cases hm
      · exact absurd hm (shown_store _ _ _ _ _)
      · exact absurd hm (shown_store _ _ _ _ _)
  | restart =>
    simp only [Cli.step, reload] at hs
    rcases hr : base.replay (diskOf w.trace) with _ | t <;> rw [hr] at hs <;> cases hs
    exact .inl hm
  | crashIn a m ih =>
    simp only [Cli.step] at hs
    rcases hr : step env base w a with _ | w2 <;> rw [hr] at hs
    · cases hs
    · simp only [reload] at hs
      rcases hr' : base.replay (diskOf (w2.trace.take (w.trace.length + m))) with _ | t <;> rw [hr'] at hs <;> cases hs
      exact ih hr (List.mem_of_mem_take hm)

/-- **C54** in every run, whatever fails or crashes and whatever is lost: an address that is shown is the one that the wallet's external
descriptor derives at the index shown with it -/
theorem C54_shown_right (env : Env D Key Ak Sec XPrv Msg T) {cp : Nat} {ext : D} {int : Option D} {base : Tracker Keychain D P T}
    (hd : Derivable ext) (hd' : ∀ d ∈ int, Derivable d) (hb : initTracker cp ext int = some base) {w : World D P T}
    (h : Run env base w) (k : Keychain) (i : Nat) (spk : Script) (hm : Event.shown k i spk ∈ w.trace) :
    k = .external ∧ spkAt ext i = some spk ∧ i ≤ cap ext := by
  have hbo := initTracker_base hd hd' hb
  have key : k = .external ∧ OfExternal base i spk := by
    induction h with
    | init => cases hm
    | step a hr hs ih =>
      rcases step_shown env hbo (run_trackerOk hbo hr) a hs k i spk hm with hm | hm
      · exact ih hm
      · exact hm
  obtain ⟨hk, d, h1, h2⟩ := key
  obtain ⟨b', e, g, -⟩ := initTracker_some (P := P) (T := T) cp ext int
  rw [hb] at e
  cases e
  rcases (g _ _).1 h1 with ⟨-, rfl⟩ | ⟨e, -⟩
  · exact ⟨hk, h2⟩
  · cases e

/-- **C84** the same of threads, however they are interleaved -/
theorem C84_shown_right [DecidableEq Ak] (env : Env D Key Ak Sec XPrv Msg T) {cp : Nat} {ext : D} {int : Option D} {base : Tracker Keychain D P T}
    (hd : Derivable ext) (hd' : ∀ d ∈ int, Derivable d) (hb : initTracker cp ext int = some base)
    (w : World D P T) (hw : Run env base w) (l : List (List (Locks.Command P T))) (ms : List (Locks.Move (Locks.Reply P T)))
    (s : Locks.State (Locks.Shared D P T) (Locks.Reply P T) Locks.Request) (h : Locks.Reaches env l ⟨w.tracker, []⟩ ms s)
    (hp : s.poisoned .tracker = false) (hh : s.holder .tracker = none) (k : Keychain) (i : Nat) (spk : Script)
    (hm : Event.shown k i spk ∈ s.shared.trace) : k = .external ∧ spkAt ext i = some spk ∧ i ≤ cap ext := by
  obtain ⟨w', es, hr, -, ht, hu, -⟩ := Locks.C84_as_C54 env base w hw l ms s h hp hh
  refine C54_shown_right env hd hd' hb hr k i spk ?_
  rw [ht]
  rw [← hu] at hm
  exact List.mem_append_right _ (List.mem_filter.1 hm).1

end
/-- a run that loses a write and still shows an address (cf. `C54_retry_shows_unstored`), which is that of index 0; for threads see the
examples of `Props/Locks` -/
example : ∃ w : World DemoDesc TxHeight CliTx, Run exEnv exBase w ∧ ∃ spk, Event.shown .external 0 spk ∈ w.trace ∧
    spkAt (⟨true, 0⟩ : DemoDesc) 0 = some spk := by
  have h3 : (match runActs exStart [.address .next false, .address .next true] with
    | some w => decide (shownAt w.trace 1 = some (.external, 0, 0))
    | none => false) = true := by decide +kernel
  rcases hr : runActs exStart [.address .next false, .address .next true] with _ | w <;> rw [hr] at h3
  · cases h3
  · have h1 := of_decide_eq_true h3
    unfold shownAt at h1
    split at h1
    · rename_i k i spk he
      cases h1
      have hm := List.mem_of_getElem? he
      have hrun := runActs_run .init hr
      exact ⟨w, hrun, 0, hm, (C54_shown_right exEnv (demo_derivable _) (fun d _ => demo_derivable d) exBase_init hrun _ _ _ hm).2.1⟩
    · cases h1

end Verif.Props
