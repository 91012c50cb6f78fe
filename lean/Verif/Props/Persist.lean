import Verif.Spec.FileStore
import Verif.Lemmas.Tracker
import Verif.Props.Tracker

/-!
# Property C41: `Persist`
-/

set_option linter.unusedSectionVars false

namespace Verif
variable {K P T : Type} [LinearOrder K] [LinearOrder P] [LinearOrder T]

theorem OMap.append_assoc {κ ν : Type} [LinearOrder κ] (a b c : OMap κ ν) : (a.append b).append c = a.append (b.append c) := by
  apply OMap.ext_get; intro k
  simp only [OMap.get_append, Option.or_assoc]
theorem OMap.append_empty {κ ν : Type} [LinearOrder κ] (a : OMap κ ν) : a.append OMap.empty = a := rfl
theorem OMap.empty_append {κ ν : Type} [LinearOrder κ] (a : OMap κ ν) : OMap.empty.append a = a := by
  apply OMap.ext_get; intro k
  rw [OMap.get_append]
  show (a.get k).or none = _
  rw [Option.or_none]

namespace KeychainChangeSet
theorem append_assoc (a b c : KeychainChangeSet K P T) : (a.append b).append c = a.append (b.append c) := by
  unfold append CGChangeSet.append ChangeSet.append Additions.append
  simp only [DerivationAdditions.append_assoc, OMap.append_assoc]
theorem append_empty (a : KeychainChangeSet K P T) : a.append empty = a := by
  unfold append CGChangeSet.append ChangeSet.append Additions.append empty CGChangeSet.empty ChangeSet.empty Additions.empty
  simp only [DerivationAdditions.append_empty, OMap.append_empty]
theorem empty_append (a : KeychainChangeSet K P T) : empty.append a = a := by
  unfold append CGChangeSet.append ChangeSet.append Additions.append empty CGChangeSet.empty ChangeSet.empty Additions.empty
  simp only [DerivationAdditions.empty_append, OMap.empty_append]
theorem isEmpty_iff {a : KeychainChangeSet K P T} : a.isEmpty = true ↔ a = empty := by
  obtain ⟨d, ⟨⟨cp, tx⟩, ⟨t, o⟩⟩⟩ := a
  simp only [isEmpty, CGChangeSet.isEmpty, ChangeSet.isEmpty, Additions.isEmpty, Bool.and_eq_true, OMap.isEmpty_iff, empty,
    CGChangeSet.empty, ChangeSet.empty, Additions.empty, KeychainChangeSet.mk.injEq, CGChangeSet.mk.injEq, ChangeSet.mk.injEq,
    Additions.mk.injEq]
  tauto
end KeychainChangeSet

namespace Props
open Verif.Spec
variable {B E : Type}

/-- **C41** a changeset counts as empty (and is then not written) only when it says nothing at all -/
theorem C41_empty_iff (a : KeychainChangeSet K P T) :
    a.isEmpty = true ↔ (∀ k, a.derivationIndices.get k = none) ∧ (∀ h, a.chainGraph.chain.checkpoints.get h = none) ∧
      (∀ t, a.chainGraph.chain.txids.get t = none) ∧ (∀ t, OSet.mem a.chainGraph.graph.tx t = false) ∧
      ∀ o, a.chainGraph.graph.txout.get o = none := by
  rw [KeychainChangeSet.isEmpty_iff]
  constructor
  · rintro rfl
    exact ⟨fun _ => rfl, fun _ => rfl, fun _ => rfl, fun _ => rfl, fun _ => rfl⟩
  · rintro ⟨h1, h2, h3, h4, h5⟩
    obtain ⟨d, ⟨⟨cp, tx⟩, ⟨t, o⟩⟩⟩ := a
    have e1 : d = OMap.empty := OMap.ext_get (fun k => h1 k)
    have e2 : cp = OMap.empty := OMap.ext_get (fun k => h2 k)
    have e3 : tx = OMap.empty := OMap.ext_get (fun k => h3 k)
    have e4 : t = OMap.empty := OSet.ext_mem (fun k => h4 k)
    have e5 : o = OMap.empty := OMap.ext_get (fun k => h5 k)
    subst e1 e2 e3 e4 e5
    rfl

theorem merged_append (l l' : List (KeychainChangeSet K P T)) : merged (l ++ l') = (merged l).append (merged l') := by
  have gen : ∀ (l' : List (KeychainChangeSet K P T)) (a b : KeychainChangeSet K P T),
      l'.foldl .append (a.append b) = a.append (l'.foldl .append b) := by
    intro l'
    induction l' with
    | nil => intro a b; rfl
    | cons c l' ih => intro a b; simp only [List.foldl_cons]; rw [KeychainChangeSet.append_assoc, ih]
  unfold merged
  rw [List.foldl_append]
  have := gen l' (l.foldl .append .empty) .empty
  rwa [KeychainChangeSet.append_empty] at this

theorem merged_snoc (l : List (KeychainChangeSet K P T)) (c : KeychainChangeSet K P T) :
    merged (l ++ [c]) = (merged l).append c := by
  unfold merged; rw [List.foldl_append]; rfl

theorem merged_flatten (bs : List (List (KeychainChangeSet K P T))) : merged (bs.map merged) = merged bs.flatten := by
  induction bs with
  | nil => rfl
  | cons b bs ih =>
    have e : (b :: bs).map merged = [merged b] ++ bs.map merged := rfl
    rw [e, merged_append, ih, List.flatten_cons, merged_append]
    show ((KeychainChangeSet.empty.append (merged b)).append _) = _
    rw [KeychainChangeSet.empty_append]

/-- **C41** whatever the backend does and whatever the interleaving of `stage` and `commit`: the staged changesets fall, in
order, into consecutive batches; the confirmed writes are exactly these batches, each merged into one changeset and written
once, and what `staged` shows is the merge of the rest. -/
theorem C41_batches (be : PersistBackend B E (KeychainChangeSet K P T)) (b : B) (ops : List (Persist.Op K P T)) :
    ∃ (batches : List (List (KeychainChangeSet K P T))) (rest : List (KeychainChangeSet K P T)),
      batches.flatten ++ rest = stagedBy ops ∧
      confirmedWrites ((Persist.new b).run be ops).2 = batches.map merged ∧
      ((Persist.new b).run be ops).1.staged = merged rest := by
  have gen : ∀ (ops : List (Persist.Op K P T)) (p : Persist K P T B) (l : List (KeychainChangeSet K P T)), p.stage = merged l →
      ∃ (batches : List (List (KeychainChangeSet K P T))) (rest : List (KeychainChangeSet K P T)),
      batches.flatten ++ rest = l ++ stagedBy ops ∧
      confirmedWrites (p.run be ops).2 = batches.map merged ∧
      (p.run be ops).1.staged = merged rest := by
    intro ops
    induction ops with
    | nil => intro p l hp; exact ⟨[], l, by simp [stagedBy], rfl, hp⟩
    | cons op ops ih =>
      intro p l hp
      cases op with
      | stage c =>
        obtain ⟨bs, rest, h1, h2, h3⟩ := ih (p.stageChangeset c) (l ++ [c]) (by
          rw [merged_snoc, ← hp]; rfl)
        exact ⟨bs, rest, by rw [h1, List.append_assoc]; rfl, h2, h3⟩
      | commit =>
        have hst : stagedBy (Persist.Op.commit :: ops) = stagedBy ops := rfl
        cases hb : be.append p.backend p.stage with
        | mk b' r =>
          cases r with
          | error e =>
            have hc : p.commit be = ({ p with backend := b' }, .error e) := by
              unfold Persist.commit; rw [hb]
            obtain ⟨bs, rest, h1, h2, h3⟩ := ih { p with backend := b' } l hp
            refine ⟨bs, rest, h1, ?_, ?_⟩
            · rw [← h2]
              simp only [Persist.run, Persist.step, hc]
              rfl
            · simp only [Persist.run, Persist.step, hc]; exact h3
          | ok u =>
            have hc : p.commit be = (⟨b', .empty⟩, .ok ()) := by
              unfold Persist.commit; rw [hb]
            obtain ⟨bs, rest, h1, h2, h3⟩ := ih ⟨b', .empty⟩ [] rfl
            refine ⟨l :: bs, rest, ?_, ?_, ?_⟩
            · rw [hst, List.flatten_cons, List.append_assoc, h1]; rfl
            · simp only [Persist.run, Persist.step, hc]
              rw [List.map_cons, ← h2, ← hp]
              rfl
            · simp only [Persist.run, Persist.step, hc]; exact h3
  exact gen ops (Persist.new b) [] rfl

/-- **C41** … so nothing is lost, whatever failed: the confirmed writes followed by the staged remainder merge to the same
changeset as everything that was staged -/
theorem C41_nothing_lost (be : PersistBackend B E (KeychainChangeSet K P T)) (b : B) (ops : List (Persist.Op K P T)) :
    merged (confirmedWrites ((Persist.new b).run be ops).2 ++ [((Persist.new b).run be ops).1.staged]) =
      merged (stagedBy ops) := by
  obtain ⟨bs, rest, h1, h2, h3⟩ := C41_batches be b ops
  rw [h2, h3, merged_append, merged_flatten, ← h1, merged_append]
  show _ = KeychainChangeSet.append _ (merged rest)
  congr 1
  exact KeychainChangeSet.empty_append _

/-- **C41** a failed commit keeps what is staged and reports the error of the backend; a successful one writes what was staged
and leaves nothing staged.  In both cases the backend sees exactly the staged changeset, once. -/
theorem C41_commit (be : PersistBackend B E (KeychainChangeSet K P T)) (p : Persist K P T B) :
    (p.commit be).1.backend = (be.append p.backend p.staged).1 ∧
    (∀ e, (be.append p.backend p.staged).2 = .error e →
      (p.commit be).2 = .error e ∧ (p.commit be).1.staged = p.staged) ∧
    ((be.append p.backend p.staged).2 = .ok () → (p.commit be).2 = .ok () ∧ (p.commit be).1.staged.isEmpty = true) := by
  unfold Persist.commit Persist.staged
  cases hb : be.append p.backend p.stage with
  | mk b' r =>
    cases r with
    | error e =>
      refine ⟨rfl, ?_, ?_⟩
      · intro e' h; cases h; exact ⟨rfl, rfl⟩
      · intro h; cases h
    | ok u =>
      refine ⟨rfl, ?_, ?_⟩
      · intro e' h; cases h
      · intro _; exact ⟨rfl, rfl⟩

/-- **C41** if after some history the backend accepts a commit, everything staged so far is in the confirmed writes -/
theorem C41_successful_commit_flushes (be : PersistBackend B E (KeychainChangeSet K P T)) (b : B) (ops : List (Persist.Op K P T))
    (hok : (((Persist.new b).run be ops).1.commit be).2 = .ok ()) :
    merged (confirmedWrites ((Persist.new b).run be (ops ++ [.commit])).2) = merged (stagedBy ops) := by
  have hrun : ∀ (ops : List (Persist.Op K P T)) (p : Persist K P T B), p.run be (ops ++ [.commit]) =
      (((p.run be ops).1.commit be).1, (p.run be ops).2 ++ [((p.run be ops).1.stage, ((p.run be ops).1.commit be).2)]) := by
    intro ops
    induction ops with
    | nil => intro p; simp [Persist.run, Persist.step]
    | cons op ops ih => intro p; simp only [List.cons_append, Persist.run, ih, List.append_assoc]
  rw [hrun, ← C41_nothing_lost be b ops]
  simp only
  unfold confirmedWrites
  rw [List.filterMap_append]
  simp only [List.filterMap_cons, hok, List.filterMap_nil]
  rfl

/-- a backend that fails every other time -/
def flaky : PersistBackend Nat Unit (KeychainChangeSet (Fin 3) TxHeight DemoTx) :=
  ⟨fun n _ => (n + 1, if n % 2 = 0 then .error () else .ok ())⟩

/-- a changeset that reveals index `i` of keychain `k` -/
def csReveal (k : Fin 3) (i : Nat) : KeychainChangeSet (Fin 3) TxHeight DemoTx := .ofAdditions (OMap.empty.insert k i)

example : let r := (Persist.new 0).run flaky [.stage (csReveal 0 1), .commit, .stage (csReveal 1 2), .commit, .stage (csReveal 0 5), .commit]
    confirmedWrites r.2 = [(csReveal 0 1).append (csReveal 1 2)] ∧ r.1.staged = csReveal 0 5 ∧ r.2.length = 3 := by
  decide +kernel

example : (((Persist.new 1).run flaky [.stage (csReveal 0 1)]).1.commit flaky).2 = .ok () := rfl

end Props
end Verif
