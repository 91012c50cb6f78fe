import Verif.Lemmas.Process4
import Verif.Lemmas.SyncElectrum3
import Verif.Spec.Living

/-!
# A wallet on its file: what a run leaves, and that the next start is right
-/

set_option linter.unusedSectionVars false

namespace Verif.Cli
open Verif Verif.CoinSelect Verif.Planner Verif.Spec Verif.Sync Verif.Props KeychainStore

variable {D Key Ak Sec XPrv Msg T P : Type} [DescriptorOps D] [DecidableEq D] [LinearOrder P] [ChainPosition P] [LawfulChainPosition P] [LinearOrder T]
  [AsTransaction T] [LawfulTx T] [DecidableEq Key]
variable {cd : Codec (KeychainChangeSet Keychain P T)} {dom : KeychainChangeSet Keychain P T → Prop}

/-! ### the changesets a run tries to write -/

/-- the changesets of all writes, done or not -/
def triedOf (es : List (Event P T)) : List (KeychainChangeSet Keychain P T) :=
  es.filterMap fun e => match e with
    | .stored c => some c
    | .storeFailed c => some c
    | _ => none

theorem triedOf_append (a b : List (Event P T)) : triedOf (a ++ b) = triedOf a ++ triedOf b := List.filterMap_append

theorem tried_cut {es es' : List (Event P T)} (h : Cut es es') : triedOf es' <+: triedOf es := by
  cases h with
  | between hp => obtain ⟨r, rfl⟩ := hp; rw [triedOf_append]; exact List.prefix_append _ _
  | @writing pre c post =>
    rw [triedOf_append, triedOf_append]
    exact ⟨triedOf post, by rw [List.append_assoc]; rfl⟩

theorem survives_tried {es : List (Event P T)} {l} (h : Survives es l) : l.Sublist (triedOf es) := by
  induction h with
  | nil => exact .slnil
  | stored _ ih => rw [triedOf_append]; exact ih.append (List.Sublist.refl _)
  | lost _ ih => rw [triedOf_append]; exact ih.trans (List.sublist_append_left _ _)
  | kept _ ih => rw [triedOf_append]; exact ih.append (List.Sublist.refl _)
  | shown _ ih => rw [triedOf_append]; exact ih.trans (List.sublist_append_left _ _)
  | broadcast _ ih => rw [triedOf_append]; exact ih.trans (List.sublist_append_left _ _)

theorem tried_store (cs : KeychainChangeSet Keychain P T) (ok : Bool) : (triedOf (store cs ok).1).Sublist [cs] := by
  rcases store_cases cs ok with ⟨-, h⟩ | ⟨-, -, h⟩ | ⟨-, -, h⟩ <;> rw [h]
  · exact List.nil_sublist _
  · exact List.Sublist.refl _
  · exact List.Sublist.refl _

theorem mem_tried {c : KeychainChangeSet Keychain P T} {es : List (Event P T)} (h : c ∈ triedOf es) :
    Event.stored c ∈ es ∨ Event.storeFailed c ∈ es := by
  obtain ⟨e, he, h1⟩ := List.mem_filterMap.1 h
  cases e <;> simp only [Option.some.injEq, reduceCtorEq] at h1
  · subst h1; exact .inl he
  · subst h1; exact .inr he

/-- what the file has after a run: what it had, and some of what the run tried to write -/
theorem run_found (hg : GoodCodec cd dom) {env : Env D Key Ak Sec XPrv Msg T} {ext : D} {int : Option D} {cp : Nat} {disk disk' : Option Bytes}
    {t e f} (hs : start cd cp ext int disk = (disk', .running t e f)) {cmd : Command P T} {ok1 ok2 : Bool} {es : List (Event P T)}
    (hcut : Cut (runCommand env t cmd ok1 ok2).1 es) {f' : KeychainStore} (he : Effects cd f es f') (hn : NoDoubleFault e es)
    (hd : ∀ c, Event.stored c ∈ es ∨ Event.storeFailed c ∈ es → dom c) :
    ∃ base l, initTracker cp ext int = some base ∧ found cd disk = some (l, e) ∧ base.replay l = some t ∧
      ∃ x e', found cd (some f'.bytes) = some (l ++ x, e') ∧ Survives es x ∧ x.Sublist (triedOf (runCommand env t cmd ok1 ok2).1) := by
  obtain ⟨base, l, tl, g1, g2, g3, g4, g5, -⟩ := start_running hg hs
  obtain ⟨l', e2, g6, g7⟩ := effects_clean hg he (shaped_cut (shaped_command env t cmd ok1 ok2) hcut) hd g4 g5 (by
    cases e with
    | none => exact .inl ((parses_rest hg.lawful hg.nil g5).1.1 rfl)
    | some e => exact .inr (hn (by simp)))
  exact ⟨base, l, g1, g2, g3, l', e2, g6, g7, (survives_tried g7).trans (tried_cut hcut).sublist⟩

/-! ### changesets of the owner's commands -/

/-- loading a changeset that only has indices -/
theorem synced_additions {t : Tracker Keychain D P T} {v : View P T} (h : Synced t v) (hl : SparseChain.Limited t.chainGraph.chain)
    {c : KeychainChangeSet Keychain P T} (hc : c.chainGraph = CGChangeSet.empty)
    (hi : ∀ k i, c.derivationIndices.get k = some i → ∃ d, t.txoutIndex.keychains.get k = some d ∧ i ≤ cap d) :
    ∃ t', t.applyChangeset c = some t' ∧ Synced t' v ∧ t'.chainGraph = t.chainGraph ∧ t'.txoutIndex.keychains = t.txoutIndex.keychains := by
  obtain ⟨s, h1, h2, h3, -⟩ := h.ready.fit.additions c.derivationIndices hi
  have hscan : s.scan c.chainGraph.graph.txouts = some (s, OMap.empty) := by rw [hc]; rfl
  have h6 : t.applyChangeset c = some ⟨s, t.chainGraph⟩ := by
    unfold Tracker.applyChangeset
    rw [h1]
    simp only [Option.bind_eq_bind, Option.bind_some, hscan]
    rw [hc, applyEmpty_chain hl]
    rfl
  refine ⟨_, h6, ⟨⟨?_, h2.der, h2.nc, h2.room, h.ready.heights, h.ready.below, h.ready.linked, h.ready.truthful⟩, h.headers⟩, rfl, h3⟩
  unfold KeychainIndex.applyAdditions at h1
  obtain ⟨r, hr, hrs⟩ := Option.map_eq_some_iff.1 h1
  subst hrs
  exact Tracker.Reachable.index (.applyAdditions c.derivationIndices) (r.1, r.2.2) h.ready.reachable (by
    unfold KeychainIndex.step
    simp only [hr, Option.map_some])

/-- loading the changeset of a transaction that was sent -/
theorem synced_sent {t : Tracker Keychain D P T} {v : View P T} (h : Synced t v) {tx : T} {pos : P} {o : Orders P T}
    (hp : ChainPosition.height pos = .unconfirmed) {c : CGChangeSet P T} (hc : t.chainGraph.insertTxPreview tx pos o = .ok c) :
    ∃ t', t.applyChangeset (.ofChainGraph c) = some t' ∧ Synced t' v := by
  obtain ⟨t', ht'⟩ := replay_ok (log := [KeychainChangeSet.ofChainGraph c]) h.ready.fit (by
    intro c' hc' k i hi
    rw [List.mem_singleton] at hc'
    subst hc'
    unfold KeychainChangeSet.ofChainGraph at hi
    simp only [OMap.get_empty] at hi
    cases hi)
  rw [replay_cons] at ht'
  obtain ⟨t1, h1, h2⟩ := Option.bind_eq_some_iff.1 ht'
  refine ⟨t1, h1, ?_⟩
  have hstep : t.step (.insertTx tx pos o) = some (t1, some (.ofChainGraph c)) := by
    unfold Tracker.step Tracker.insertTx Tracker.insertTxPreview Tracker.applyOk
    simp only [hc, h1]
    rfl
  exact Synced.local (op := .insertTx tx pos o) h hp hstep

/-- what a command of the owner tries to write: changesets with only indices, and perhaps, in the end, a transaction -/
theorem owner_tried {env : Env D Key Ak Sec XPrv Msg T} {t : Tracker Keychain D P T} {cmd : Command P T} (ho : OfOwner cmd) (ok1 ok2 : Bool) :
    ∃ a b, (triedOf (runCommand env t cmd ok1 ok2).1).Sublist (a ++ b) ∧ (∀ c ∈ a, c.chainGraph = CGChangeSet.empty) ∧
      (b = [] ∨ ∃ tx o c, t.chainGraph.insertTxPreview tx (ChainPosition.maxOrd .unconfirmed) o = .ok c ∧
        b = [KeychainChangeSet.ofChainGraph c]) := by
  have addi : ∀ (a : DerivationAdditions Keychain), ∀ c ∈ [(.ofAdditions a : KeychainChangeSet Keychain P T)],
      c.chainGraph = CGChangeSet.empty := by
    intro a c hc
    rw [List.mem_singleton] at hc
    subst hc
    rfl
  unfold runCommand
  cases cmd with
  | print => exact ⟨[], [], List.nil_sublist _, by simp, .inl rfl⟩
  | syncElectrum => cases ho
  | syncEsplora => cases ho
  | address c =>
    simp only
    rcases hr : runAddressCmd t c ok1 with _ | ⟨t1, es1, r⟩
    · exact ⟨[], [], List.nil_sublist _, by simp, .inl rfl⟩
    simp only
    rcases address_spec hr with ⟨-, h2, -⟩ | ⟨q, -, -, h3⟩
    · simp only at h2
      rw [h2]
      exact ⟨[], [], List.nil_sublist _, by simp, .inl rfl⟩
    · refine ⟨[.ofAdditions q.2.2], [], ?_, addi _, .inl rfl⟩
      rw [List.append_nil]
      rcases h3 with ⟨-, h3, -⟩ | ⟨-, h3, -⟩ <;> simp only at h3 <;> rw [h3]
      · rw [triedOf_append]
        have : triedOf [(Event.shown .external q.2.1.1 q.2.1.2 : Event P T)] = [] := rfl
        rw [this, List.append_nil]
        exact tried_store _ _
      · exact tried_store _ _
  | send luck value payee algo sent o =>
    simp only
    unfold runSend
    rcases hr : sendPrepare env luck t value payee algo ok1 with _ | ⟨t1, es1, e⟩
    · exact ⟨[], [], List.nil_sublist _, by simp, .inl rfl⟩
    obtain ⟨q, -, h3⟩ := prepare_spec hr
    have h1 : t1.chainGraph = t.chainGraph ∧ (triedOf es1).Sublist [.ofAdditions q.2.2] := by
      rcases h3 with ⟨e1, e2, -⟩ | ⟨-, e1, e2, -⟩ | ⟨-, e1, e2, -⟩ <;> simp only at e1 e2 <;> rw [e1, e2]
      · exact ⟨rfl, List.nil_sublist _⟩
      · exact ⟨rfl, tried_store _ _⟩
      · exact ⟨rfl, tried_store _ _⟩
    obtain ⟨h1, h2⟩ := h1
    cases e with
    | error e => exact ⟨[.ofAdditions q.2.2], [], by rw [List.append_nil]; exact h2, addi _, .inl rfl⟩
    | ok f =>
      have hbc : ∀ b, triedOf [(Event.broadcast f.tx b : Event P T)] = [] := fun _ => rfl
      simp only
      split
      · rcases hr2 : sendSucceeded env t1 f o ok2 with _ | ⟨t2, es2, r⟩
        · refine ⟨[.ofAdditions q.2.2], [], ?_, addi _, .inl rfl⟩
          rw [triedOf_append, hbc, List.append_nil, List.append_nil]
          exact h2
        · simp only
          rw [triedOf_append, triedOf_append, hbc, List.append_nil]
          obtain ⟨q2, g1, -, g3⟩ := succeeded_spec hr2
          simp only at g3
          rcases g3 with ⟨-, -, g4, -⟩ | ⟨cs, g4, g5, -⟩
          · rw [g4]
            refine ⟨[.ofAdditions q.2.2], [], ?_, addi _, .inl rfl⟩
            have : triedOf ([] : List (Event P T)) = [] := rfl
            rw [this]
            exact h2.append (List.Sublist.refl _)
          · rw [g5]
            unfold Tracker.insertTx Tracker.insertTxPreview Tracker.applyOk at g1
            rw [h1] at g1
            cases hd : t.chainGraph.insertTxPreview (env.toT f.tx) (ChainPosition.maxOrd .unconfirmed) o with
            | panic => rw [hd] at g1; cases g1
            | err er => rw [hd] at g1; cases g1; cases g4
            | ok c =>
              rw [hd] at g1
              simp only at g1
              obtain ⟨t3, -, g6⟩ := Option.map_eq_some_iff.1 g1
              subst g6
              cases g4
              exact ⟨[.ofAdditions q.2.2], [.ofChainGraph c], h2.append (tried_store _ _), addi _, .inr ⟨_, _, c, hd, rfl⟩⟩
      · refine ⟨[.ofAdditions q.2.2], [], ?_, addi _, .inl rfl⟩
        rw [triedOf_append, hbc, List.append_nil, List.append_nil]
        exact h2

/-- whatever part of it is found later, the wallet is as right as it was -/
theorem owner_replay {env : Env D Key Ak Sec XPrv Msg T} {t : Tracker Keychain D P T} {v : View P T} (h : Synced t v)
    (hl : SparseChain.Limited t.chainGraph.chain) {cmd : Command P T} (ho : OfOwner cmd) {ok1 ok2 : Bool}
    {x : List (KeychainChangeSet Keychain P T)} (hx : x.Sublist (triedOf (runCommand env t cmd ok1 ok2).1))
    (hi : ∀ c ∈ x, ∀ k i, c.derivationIndices.get k = some i → ∃ d, t.txoutIndex.keychains.get k = some d ∧ i ≤ cap d) :
    ∃ t', t.replay x = some t' ∧ Synced t' v := by
  obtain ⟨a, b, h1, h2, h3⟩ := owner_tried (env := env) (t := t) ho ok1 ok2
  obtain ⟨x1, x2, rfl, hx1, hx2⟩ := List.sublist_append_iff.1 (hx.trans h1)
  have first : ∀ (x : List (KeychainChangeSet Keychain P T)) (t : Tracker Keychain D P T), Synced t v → SparseChain.Limited t.chainGraph.chain →
      (∀ c ∈ x, c.chainGraph = CGChangeSet.empty) →
      (∀ c ∈ x, ∀ k i, c.derivationIndices.get k = some i → ∃ d, t.txoutIndex.keychains.get k = some d ∧ i ≤ cap d) →
      ∃ t', t.replay x = some t' ∧ Synced t' v ∧ t'.chainGraph = t.chainGraph := by
    intro x
    induction x with
    | nil => intro t h _ _ _; exact ⟨t, rfl, h, rfl⟩
    | cons c x ih =>
      intro t h hl he hi
      obtain ⟨t1, g1, g2, g3, g4⟩ := synced_additions h hl (he c (by simp)) (hi c (by simp))
      obtain ⟨t', g5, g6, g7⟩ := ih t1 g2 (by rw [g3]; exact hl) (fun c' hc' => he c' (by simp [hc'])) (fun c' hc' k i hk => by
        rw [g4]; exact hi c' (by simp [hc']) k i hk)
      refine ⟨t', ?_, g6, g7.trans g3⟩
      rw [replay_cons, g1]
      exact g5
  obtain ⟨t1, g1, g2, g3⟩ := first x1 t h hl (fun c hc => h2 c (hx1.subset hc)) (fun c hc => hi c (List.mem_append_left _ hc))
  rw [replay_append, g1]
  rcases h3 with rfl | ⟨tx, o, c, h4, rfl⟩
  · rw [List.sublist_nil] at hx2
    subst hx2
    exact ⟨t1, rfl, g2⟩
  · rcases hx2 with _ | hx2 | hx2
    · rename_i hx2
      rw [List.sublist_nil] at hx2
      subst hx2
      exact ⟨t1, rfl, g2⟩
    · rename_i hx2
      rw [List.sublist_nil] at hx2
      subst hx2
      obtain ⟨t2, g4, g5⟩ := synced_sent g2 (LawfulChainPosition.height_max _) (by rw [g3]; exact h4)
      refine ⟨t2, ?_, g5⟩
      simp only [Option.bind_some]
      rw [replay_cons, g4]
      rfl

end Verif.Cli
