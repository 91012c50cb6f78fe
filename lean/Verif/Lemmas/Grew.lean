import Verif.Lemmas.Tracker
import Verif.Props.Tracker

/-!
# Every call of the tracker only adds to its index
-/

set_option linter.unusedSectionVars false

namespace Verif.Cli
open Verif Verif.Spec Verif.Props

variable {K D T P : Type} [LinearOrder K] [DescriptorOps D] [DecidableEq D] [LinearOrder P] [ChainPosition P] [LawfulChainPosition P]
  [LinearOrder T] [AsTransaction T] [LawfulTx T]

/-- the index was changed by calls that add no keychain -/
def Grew (s s' : KeychainIndex K D) : Prop :=
  (KeychainIndex.Reachable s → KeychainIndex.Reachable s') ∧ ∃ a, KeychainIndex.Upd s s' a

theorem Grew.refl (s : KeychainIndex K D) : Grew s s := ⟨id, OMap.empty, .refl s⟩

theorem Grew.trans {a b c : KeychainIndex K D} (h : Grew a b) (h' : Grew b c) : Grew a c := by
  obtain ⟨h1, x, h2⟩ := h
  obtain ⟨h3, y, h4⟩ := h'
  exact ⟨fun h => h3 (h1 h), _, h2.trans h4⟩

theorem applyChangeset_grew {t t' : Tracker K D P T} {cs} (h : t.applyChangeset cs = some t') :
    Grew t.txoutIndex t'.txoutIndex := by
  unfold Tracker.applyChangeset at h
  cases h1 : t.txoutIndex.applyAdditions cs.derivationIndices with
  | none => rw [h1] at h; cases h
  | some i =>
    rw [h1] at h
    simp only [Option.bind_eq_bind, Option.bind_some] at h
    cases h2 : i.scan cs.chainGraph.graph.txouts with
    | none => rw [h2] at h; cases h
    | some r =>
      rw [h2] at h
      cases h
      unfold KeychainIndex.applyAdditions at h1
      rw [Option.map_eq_some_iff] at h1
      obtain ⟨r1, h1, rfl⟩ := h1
      refine Grew.trans (b := r1.1) ⟨fun hr => ?_, _, KeychainIndex.revealMulti_upd h1⟩ ⟨fun hr => ?_, _, KeychainIndex.scan_upd h2⟩
      · exact hr.step (op := .revealToTargetMulti cs.derivationIndices) (r := (r1.1, r1.2.2)) (by
          simp only [KeychainIndex.step, h1, Option.map_some])
      · exact hr.step (op := .scan cs.chainGraph.graph.txouts) (r := r) h2

theorem step_grew {t : Tracker K D P T} {op : Tracker.Op K P T} {r} (h : t.step op = some r) :
    Grew t.txoutIndex r.1.txoutIndex := by
  have happly : ∀ {ε : Type} (q : Res ε (KeychainChangeSet K P T)), (t.applyOk q).map Tracker.logged = some r →
      Grew t.txoutIndex r.1.txoutIndex := by
    intro ε q hq
    cases q with
    | panic => cases hq
    | err e => cases hq; exact .refl _
    | ok cs =>
      unfold Tracker.applyOk at hq
      simp only [Option.map_map, Option.map_eq_some_iff] at hq
      obtain ⟨t1, ht1, rfl⟩ := hq
      exact applyChangeset_grew ht1
  have hidx : ∀ (iop : KeychainIndex.Op K D) (q), (∀ r', q = some r' → ∃ a, KeychainIndex.Upd t.txoutIndex r'.1 a) →
      t.txoutIndex.step iop = q → t.viaIndex q = some r → Grew t.txoutIndex r.1.txoutIndex := by
    intro iop q hu hq hv
    unfold Tracker.viaIndex at hv
    rw [Option.map_eq_some_iff] at hv
    obtain ⟨q', rfl, rfl⟩ := hv
    exact ⟨fun hr => hr.step hq, hu q' rfl⟩
  cases op with
  | applyUpdate scan o => simp only [Tracker.step] at h; exact happly _ h
  | insertTx tx pos o => simp only [Tracker.step] at h; exact happly _ h
  | insertCheckpoint b o => simp only [Tracker.step] at h; exact happly _ h
  | revealToTarget k n =>
    refine hidx (.revealToTarget k n) _ (fun r' hr' => ?_) rfl h
    simp only [KeychainIndex.step, Option.map_eq_some_iff] at hr'
    obtain ⟨s', h1, rfl⟩ := hr'
    exact ⟨_, KeychainIndex.reveal_upd h1⟩
  | revealToTargetMulti m =>
    refine hidx (.revealToTargetMulti m) _ (fun r' hr' => ?_) rfl h
    simp only [KeychainIndex.step, Option.map_eq_some_iff] at hr'
    obtain ⟨s', h1, rfl⟩ := hr'
    exact ⟨_, KeychainIndex.revealMulti_upd h1⟩
  | revealNextSpk k =>
    refine hidx (.revealNextSpk k) _ (fun r' hr' => ?_) rfl h
    simp only [KeychainIndex.step, Option.map_eq_some_iff] at hr'
    obtain ⟨s', h1, rfl⟩ := hr'
    exact ⟨_, KeychainIndex.revealNext_upd h1⟩
  | revealAndReserveNextSpk k =>
    refine hidx (.revealAndReserveNextSpk k) _ (fun r' hr' => ?_) rfl h
    simp only [KeychainIndex.step, Option.map_eq_some_iff] at hr'
    obtain ⟨s', h1, rfl⟩ := hr'
    obtain ⟨r', hr, e1, -, e3, -⟩ := KeychainIndex.revealReserve_spec h1
    refine ⟨r'.2.2, ?_⟩
    simp only []
    rw [e1]
    exact (KeychainIndex.revealNext_upd hr).trans_empty (KeychainIndex.markUsed_upd _ _ _)
  | nextUnusedSpk k =>
    refine hidx (.nextUnusedSpk k) _ (fun r' hr' => ?_) rfl h
    simp only [KeychainIndex.step, Option.map_eq_some_iff] at hr'
    obtain ⟨s', h1, rfl⟩ := hr'
    exact ⟨_, KeychainIndex.nextUnused_upd h1⟩
  | reserveNextUnusedSpk k =>
    refine hidx (.reserveNextUnusedSpk k) _ (fun r' hr' => ?_) rfl h
    simp only [KeychainIndex.step, Option.map_eq_some_iff] at hr'
    obtain ⟨s', h1, rfl⟩ := hr'
    obtain ⟨r', hr, e1, -, e3, -⟩ := KeychainIndex.reserveUnused_spec h1
    refine ⟨r'.2.2, ?_⟩
    simp only []
    rw [e1]
    exact (KeychainIndex.nextUnused_upd hr).trans_empty (KeychainIndex.markUsed_upd _ _ _)
  | markUsed k i =>
    exact hidx (.markUsed k i) _ (fun r' hr' => by cases hr'; exact ⟨_, KeychainIndex.markUsed_upd _ k i⟩) rfl h
  | unmarkUsed k i =>
    exact hidx (.unmarkUsed k i) _ (fun r' hr' => by cases hr'; exact ⟨_, KeychainIndex.unmarkUsed_upd _ k i⟩) rfl h

theorem run_grew {ops : List (Tracker.Op K P T)} {t : Tracker K D P T} {r} (h : t.runFrom ops = some r) :
    Grew t.txoutIndex r.1.txoutIndex := by
  induction ops generalizing t r with
  | nil => cases h; exact .refl _
  | cons op ops ih =>
    obtain ⟨r1, r2, h1, h2, rfl⟩ := runFrom_cons h
    exact (step_grew h1).trans (ih (r := r2) h2)

end Verif.Cli
