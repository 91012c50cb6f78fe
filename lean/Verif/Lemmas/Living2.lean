import Verif.Lemmas.Living
import Verif.Props.Cli

/-!
# A wallet on its file: the commands that ask an honest server, and the invariant of a life
-/

set_option linter.unusedSectionVars false

namespace Verif.Cli
open Verif Verif.CoinSelect Verif.Planner Verif.Spec Verif.Sync Verif.Props KeychainStore

section Generic
variable {D Key Ak Sec XPrv Msg T P : Type} [DescriptorOps D] [DecidableEq D] [LinearOrder P] [ChainPosition P] [LawfulChainPosition P] [LinearOrder T]
  [AsTransaction T] [LawfulTx T] [DecidableEq Key]

/-- the keychains of the wallet are those of the program's arguments -/
def HasKeychains (ext : D) (int : Option D) (s : KeychainIndex Keychain D) : Prop :=
  ∀ k d, s.keychains.get k = some d ↔ (k = .external ∧ d = ext ∨ k = .internal ∧ int = some d)

/-- what a command with the right answers does to a wallet that is right -/
structure Delivery (ext : D) (int : Option D) (t : Tracker Keychain D P T) (v' : View P T) (cmd : Command P T) : Prop where
  sound : v'.Sound
  range : ScanInRange ext int cmd
  good : ∃ sc o t' cs, (cmd = .syncElectrum sc o ∨ cmd = .syncEsplora sc o) ∧ t.determineChangeset sc o = .ok cs ∧
    t.applyChangeset cs = some t' ∧ Synced t' v'

theorem applyUpdate_split {t t' : Tracker Keychain D P T} {sc o cs} (h : t.applyUpdate sc o = some (t', .ok cs)) :
    t.determineChangeset sc o = .ok cs ∧ t.applyChangeset cs = some t' := by
  unfold Tracker.applyUpdate Tracker.applyOk at h
  cases hd : t.determineChangeset sc o with
  | panic => rw [hd] at h; cases h
  | err e => rw [hd] at h; cases h
  | ok cs' =>
    rw [hd] at h
    simp only at h
    obtain ⟨t1, h1, h2⟩ := Option.map_eq_some_iff.1 h
    cases h2
    exact ⟨rfl, h1⟩

/-- the events of a command that asks a server are those of one write -/
theorem delivery_command {ext : D} {int : Option D} {t : Tracker Keychain D P T} {v' : View P T} {cmd : Command P T}
    (h : Delivery ext int t v' cmd) : ∃ t' cs, t.applyChangeset cs = some t' ∧ Synced t' v' ∧
      ∀ (env : Env D Key Ak Sec XPrv Msg T) ok1 ok2, (runCommand env t cmd ok1 ok2).1 = (store cs ok1).1 ∧
        (ok1 = true → (runCommand env t cmd ok1 ok2).2 = some t') := by
  obtain ⟨sc, o, t', cs, h1, h2, h3, h4⟩ := h.good
  refine ⟨t', cs, h3, h4, fun env ok1 ok2 => ?_⟩
  rcases h1 with rfl | rfl
  · unfold runCommand runSyncElectrum
    simp only
    rw [h2]
    refine ⟨rfl, fun hok => ?_⟩
    subst hok
    have hs : (store cs true : List (Event P T) × Bool).2 = true := by
      rcases store_cases cs true with ⟨-, h'⟩ | ⟨-, -, h'⟩ | ⟨-, h', -⟩
      · rw [h']
      · rw [h']
      · cases h'
    simp only
    rw [if_pos hs, h3]
  · have hu : t.applyUpdate sc o = some (t', .ok cs) := by
      unfold Tracker.applyUpdate Tracker.applyOk
      rw [h2]
      simp only
      rw [h3]
      rfl
    unfold runCommand syncEsplora
    simp only
    rw [hu]
    exact ⟨rfl, fun _ => rfl⟩

theorem synced_new {t : Tracker Keychain D P T} {v : View P T} (hr : t.Reachable) (hf : Fit t.txoutIndex)
    (hc : t.chainGraph = ChainGraph.empty ∨ ∃ l, t.chainGraph = (ChainGraph.empty : ChainGraph P T).setCheckpointLimit l) : Synced t v := by
  have h1 : ∀ h, t.chainGraph.chain.checkpointAt h = none := by
    intro h
    rcases hc with e | ⟨_ | l, e⟩ <;> rw [e]
    · rfl
    · rfl
    · cases l <;> rfl
  have h2 : ∀ x, t.chainGraph.chain.txPosition x = none := by
    intro x
    rcases hc with e | ⟨_ | l, e⟩ <;> rw [e]
    · rfl
    · rfl
    · cases l <;> rfl
  refine ⟨⟨hr, hf.der, hf.nc, hf.room, ⟨?_, ?_⟩, ?_, ?_, ?_⟩, ?_⟩
  · rintro k ⟨b, hb⟩; rw [h1] at hb; cases hb
  · intro x p k hp; rw [h2] at hp; cases hp
  · rintro k ⟨b, hb⟩; rw [h1] at hb; cases hb
  · intro a b x y _ hx; rw [h1] at hx; cases hx
  · intro x p k hp; rw [h2] at hp; cases hp
  · intro k b hb; rw [h1] at hb; cases hb

variable {cd : Codec (KeychainChangeSet Keychain P T)} {dom : KeychainChangeSet Keychain P T → Prop}

theorem initTracker_chain {cp : Nat} {ext : D} {int : Option D} {base : Tracker Keychain D P T} (h : initTracker cp ext int = some base) :
    base.chainGraph = (ChainGraph.empty : ChainGraph P T).setCheckpointLimit (some cp) := by
  unfold initTracker at h
  simp only at h
  have add : ∀ (t t' : Tracker Keychain D P T) k d, t.addKeychain k d = some t' → t'.chainGraph = t.chainGraph := by
    intro t t' k d h
    unfold Tracker.addKeychain at h
    rw [Option.map_eq_some_iff] at h
    obtain ⟨i, hi, rfl⟩ := h
    rfl
  cases h1 : ((Tracker.empty : Tracker Keychain D P T).setCheckpointLimit (some cp)).addKeychain .external ext with
  | none => rw [h1] at h; cases h
  | some t =>
    rw [h1] at h
    have h2 := add _ _ _ _ h1
    cases int with
    | none => cases h; exact h2
    | some d => exact (add _ _ _ _ h).trans h2

/-- the file is right: its changesets make up a wallet that is right, or its creation died -/
def FileOk (cd : Codec (KeychainChangeSet Keychain P T)) (cp : Nat) (ext : D) (int : Option D) (disk : Option Bytes) (v : View P T) : Prop :=
  (found cd disk = none ∧ ∃ k, k < 12 ∧ disk = some (crashInCreate k)) ∨
  ∃ l e base t, initTracker cp ext int = some base ∧ found cd disk = some (l, e) ∧ base.replay l = some t ∧ Synced t v

theorem base_synced {cp : Nat} {ext : D} {int : Option D} (hx : Derivable ext) (hx' : ∀ d ∈ int, Derivable d) (hdist : DistinctScripts ext int)
    {base : Tracker Keychain D P T} (hb : initTracker cp ext int = some base) (v : View P T) : Synced base v := by
  obtain ⟨base', hb', hk, -⟩ := initTracker_some (P := P) (T := T) cp ext int
  rw [hb] at hb'
  cases hb'
  have hnc : NoCollision base.txoutIndex := fun k d i k' d' j spk h1 h2 => hdist k k' d d' i j spk ((hk k d).1 h1) ((hk k' d').1 h2)
  exact synced_new (initTracker_reachable hb) (initTracker_fit hx hx' hb hnc) (.inr ⟨_, initTracker_chain hb⟩)

/-- a started wallet -/
theorem started_parts {cp : Nat} {ext : D} {int : Option D} (hx : Derivable ext) (hx' : ∀ d ∈ int, Derivable d) {base t : Tracker Keychain D P T}
    (hb : initTracker cp ext int = some base) {l} (hl : base.replay l = some t) :
    SparseChain.Limited t.chainGraph.chain ∧ HasKeychains ext int t.txoutIndex ∧ KeychainIndex.Reachable t.txoutIndex ∧ AllDerivable t.txoutIndex := by
  have hbo := initTracker_base hx hx' hb
  have ht := reload_ok hbo hl
  obtain ⟨base', hb', hk, -⟩ := initTracker_some (P := P) (T := T) cp ext int
  rw [hb] at hb'
  cases hb'
  exact ⟨ht.limited, fun k d => by rw [ht.kc]; exact hk k d, ht.reach, ht.derivable hbo⟩

theorem changesetsIn_eq {disk disk' : Option Bytes} {l x : List (KeychainChangeSet Keychain P T)} {e e'} (h : found cd disk = some (l, e))
    (h' : found cd disk' = some (l ++ x, e')) : changesetsIn cd disk' = changesetsIn cd disk ↔ x = [] := by
  unfold changesetsIn
  rw [h, h']
  simp

theorem applyEmpty {t t' : Tracker Keychain D P T} (hl : SparseChain.Limited t.chainGraph.chain) {c : KeychainChangeSet Keychain P T}
    (hc : c.isEmpty = true) (h : t.applyChangeset c = some t') : t' = t := by
  rw [KeychainChangeSet.isEmpty_iff] at hc
  subst hc
  unfold Tracker.applyChangeset at h
  have h1 : t.txoutIndex.applyAdditions (KeychainChangeSet.empty : KeychainChangeSet Keychain P T).derivationIndices = some t.txoutIndex := rfl
  have h2 : t.txoutIndex.scan (KeychainChangeSet.empty : KeychainChangeSet Keychain P T).chainGraph.graph.txouts =
      some (t.txoutIndex, OMap.empty) := rfl
  have h3 : t.chainGraph.applyChangeset (KeychainChangeSet.empty : KeychainChangeSet Keychain P T).chainGraph = t.chainGraph :=
    applyEmpty_chain hl
  rw [h1] at h
  simp only [Option.bind_eq_bind, Option.bind_some, h2, h3] at h
  cases h
  rfl

theorem tried_range {env : Env D Key Ak Sec XPrv Msg T} {t : Tracker Keychain D P T} {ext : D} {int : Option D}
    (hk : HasKeychains ext int t.txoutIndex) (hr : KeychainIndex.Reachable t.txoutIndex)
    (hd : AllDerivable t.txoutIndex) {cmd : Command P T} (hs : ScanInRange ext int cmd) {ok1 ok2 : Bool} {x : List (KeychainChangeSet Keychain P T)}
    (hx : x.Sublist (triedOf (runCommand env t cmd ok1 ok2).1)) :
    ∀ c ∈ x, ∀ k i, c.derivationIndices.get k = some i → ∃ d, t.txoutIndex.keychains.get k = some d ∧ i ≤ cap d := by
  intro c hc k i hi
  obtain ⟨d, h1, h2⟩ := command_range (env := env) hr hd hk cmd ok1 ok2 hs c (mem_tried (hx.subset hc)) k i hi
  exact ⟨d, (hk k d).2 h1, h2⟩

theorem survives_disk {es : List (Event P T)} {l} (h : Survives es l) : (diskOf es).Sublist l := by
  induction h with
  | nil => exact .slnil
  | stored _ ih => rw [diskOf_append]; exact ih.append (List.Sublist.refl _)
  | lost _ ih => rw [diskOf_append]; simpa [diskOf] using ih
  | kept _ ih => rw [diskOf_append]; refine List.Sublist.trans ?_ (List.sublist_append_left _ _); simpa [diskOf] using ih
  | shown _ ih => rw [diskOf_append]; simpa [diskOf] using ih
  | broadcast _ ih => rw [diskOf_append]; simpa [diskOf] using ih

/-- the invariant of a life -/
theorem lived_inv {env : Env D Key Ak Sec XPrv Msg T} {ext : D} {int : Option D} {cp : Nat}
    {Fetch : Tracker Keychain D P T → View P T → View P T → Command P T → Prop} (hg : GoodCodec cd dom) (hx : Derivable ext)
    (hx' : ∀ d ∈ int, Derivable d) (hdist : DistinctScripts ext int)
    (hF : ∀ t v v' cmd, Synced t v → v.Sound → HasKeychains ext int t.txoutIndex → Fetch t v v' cmd → Delivery ext int t v' cmd)
    {disk : Option Bytes} {v : View P T} (h : Lived Fetch env cd dom cp ext int disk v) : v.Sound ∧ FileOk cd cp ext int disk v := by
  induction h with
  | new hv =>
    obtain ⟨base, hb, -⟩ := initTracker_some (P := P) (T := T) cp ext int
    exact ⟨hv, .inr ⟨[], none, base, base, hb, rfl, rfl, base_synced hx hx' hdist hb _⟩⟩
  | @creating v k _ ih =>
    refine ⟨ih.1, ?_⟩
    rcases crashInCreate_found hg k with ⟨h1, h2⟩ | h2
    · exact .inl ⟨h2, k, h1, rfl⟩
    · obtain ⟨base, hb, -⟩ := initTracker_some (P := P) (T := T) cp ext int
      exact .inr ⟨[], none, base, base, hb, h2, rfl, base_synced hx hx' hdist hb _⟩
  | @stopped disk disk' v s _ hs ih =>
    refine ⟨ih.1, ?_⟩
    rcases ih.2 with ⟨h1, k, h2, h3⟩ | ⟨l, e, base, t, h1, h2, h3, h4⟩
    · obtain ⟨base, hb, -⟩ := initTracker_some (P := P) (T := T) cp ext int
      obtain ⟨e, h5⟩ := start_not_found hg hb h1
      rw [h5] at hs
      cases hs
      exact .inl ⟨h1, k, h2, h3⟩
    · exact .inr ⟨l, e, base, t, h1, by rw [stopped_found hg hs]; exact h2, h3, h4⟩
  | @owner disk disk' v es t e f f' cmd ok1 ok2 _ hs hown hcut he hn hd ih =>
    refine ⟨ih.1, .inr ?_⟩
    obtain ⟨base, l, g1, g2, g3, x, e', g4, -, g5⟩ := run_found hg hs hcut he hn hd
    rcases ih.2 with ⟨h1, -⟩ | ⟨l', e'', base', t', h1, h2, h3, h4⟩
    · rw [h1] at g2; cases g2
    rw [g1] at h1; cases h1
    rw [g2] at h2; cases h2
    rw [g3] at h3; cases h3
    obtain ⟨p1, p2, p3, p4⟩ := started_parts hx hx' g1 g3
    obtain ⟨t', q1, q2⟩ := owner_replay (env := env) h4 p1 hown g5 (tried_range (env := env) p2 p3 p4 (by cases cmd <;> first | trivial | cases hown) g5)
    exact ⟨l ++ x, e', base, t', g1, g4, by rw [replay_append, g3]; exact q1, q2⟩
  | @fetched disk disk' v v' es t e f f' cmd ok1 ok2 v'' _ hs hfetch hcut he hn hd hv ih =>
    obtain ⟨base, l, g1, g2, g3, x, e', g4, g6, g5⟩ := run_found hg hs hcut he hn hd
    rcases ih.2 with ⟨h1, -⟩ | ⟨l', e'', base', t', h1, h2, h3, h4⟩
    · rw [h1] at g2; cases g2
    rw [g1] at h1; cases h1
    rw [g2] at h2; cases h2
    rw [g3] at h3; cases h3
    obtain ⟨p1, p2, p3, p4⟩ := started_parts hx hx' g1 g3
    have hdel := hF _ _ _ _ h4 ih.1 p2 hfetch
    obtain ⟨t', cs, q1, q2, q3⟩ := delivery_command (Key := Key) (Ak := Ak) (Sec := Sec) (XPrv := XPrv) (Msg := Msg) hdel
    have hsub : x.Sublist [cs] := by rw [(q3 env ok1 ok2).1] at g5; exact g5.trans (tried_store _ _)
    have hx1 : x = [] ∨ x = [cs] := by
      cases hsub with
      | cons _ h => rw [List.sublist_nil] at h; exact .inl h
      | cons_cons _ h => rw [List.sublist_nil] at h; exact .inr (by rw [h])
    rcases hv with ⟨rfl, hv⟩ | ⟨rfl, hv⟩
    · refine ⟨hdel.sound, .inr ?_⟩
      rcases hx1 with rfl | rfl
      · rcases hv with hv | hv
        · exact absurd ((changesetsIn_eq g2 g4).2 rfl) hv
        · rw [List.append_nil] at g4
          rw [hv, (q3 env true true).1] at g6
          have hemp : cs.isEmpty = true := by
            rcases store_cases cs true with ⟨h', -⟩ | ⟨-, -, h'⟩ | ⟨-, h', -⟩
            · exact h'
            · rw [h'] at g6
              have : (Event.stored cs : Event P T) ∈ [.stored cs] := by simp
              have h0 := survives_disk g6
              cases h0
            · cases h'
          have := applyEmpty p1 hemp q1
          subst this
          exact ⟨l, e', base, t', g1, g4, g3, q2⟩
      · exact ⟨l ++ [cs], e', base, t', g1, g4, by rw [replay_append, g3]; show t.replay [cs] = _; rw [replay_cons, q1]; rfl, q2⟩
    · refine ⟨ih.1, .inr ?_⟩
      have hxe := (changesetsIn_eq g2 g4).1 hv
      subst hxe
      rw [List.append_nil] at g4
      exact ⟨l, e', base, t, g1, g4, g3, h4⟩

end Generic

end Verif.Cli
