import Verif.Lemmas.Living3
import Verif.Props.Sync
import Verif.Props.Process
import Verif.Props.SyncElectrum2

/-!
# Property C79: a wallet of an example program lives on its file, with honest servers, restarts and crashes
-/

set_option linter.unusedSectionVars false

namespace Verif.Cli
open Verif Verif.CoinSelect Verif.Planner Verif.Spec Verif.Sync Verif.Props KeychainStore

/-! ## for whatever the servers deliver -/
section Generic
variable {D Key Ak Sec XPrv Msg T P : Type} [DescriptorOps D] [DecidableEq D] [LinearOrder P] [ChainPosition P] [LawfulChainPosition P] [LinearOrder T]
  [AsTransaction T] [LawfulTx T] [DecidableEq Key]
  {cd : Codec (KeychainChangeSet Keychain P T)} {dom : KeychainChangeSet Keychain P T → Prop}
  {env : Env D Key Ak Sec XPrv Msg T} {ext : D} {int : Option D} {cp : Nat}
  {Fetch : Tracker Keychain D P T → View P T → View P T → Command P T → Prop}

/-- a wallet without a file -/
theorem new_parts (hg : GoodCodec cd dom) {disk' t e f} (hst : start cd cp ext int none = (disk', .running t e f)) :
    e = none ∧ (∀ y, t.chainGraph.graph.getTx y = none) ∧ ∀ y, ¬ InChain t.chainGraph.chain y := by
  obtain ⟨base, l, tl, g1, g2, g3, -⟩ := start_running hg hst
  have : found cd none = some (([], none) : List (KeychainChangeSet Keychain P T) × _) := rfl
  rw [this] at g2
  cases g2
  cases g3
  refine ⟨rfl, ?_⟩
  rw [initTracker_chain g1]
  refine ⟨fun y => ?_, fun y hy => hy ?_⟩
  · cases cp <;> rfl
  · cases cp <;> rfl

theorem store_dom {cs : KeychainChangeSet Keychain P T} (hdom : dom cs) (c)
    (hc : Event.stored c ∈ (store cs true : List (Event P T) × Bool).1 ∨ Event.storeFailed c ∈ (store cs true : List (Event P T) × Bool).1) : dom c := by
  rcases store_cases cs true with ⟨-, h'⟩ | ⟨-, -, h'⟩ | ⟨-, h', -⟩
  · rw [h'] at hc; simp at hc
  · rw [h'] at hc
    simp at hc
    rw [hc]; exact hdom
  · cases h'

theorem electrum_run {t t' : Tracker Keychain D P T} {sc o cs} (hu : t.applyUpdate sc o = some (t', .ok cs)) :
    runCommand env t (.syncElectrum sc o) true true = ((store cs true).1, some t') := by
  obtain ⟨h2, h3⟩ := applyUpdate_split hu
  have hs : (store cs true : List (Event P T) × Bool).2 = true := by
    rcases store_cases cs true with ⟨-, h'⟩ | ⟨-, -, h'⟩ | ⟨-, h', -⟩
    · rw [h']
    · rw [h']
    · cases h'
  unfold runCommand runSyncElectrum
  simp only
  rw [h2]
  simp only
  rw [if_pos hs, h3]

theorem finish_parts {t t' : Tracker Keychain D TxHeight T} {get : Txid → Option T} {so : SpendOrder} {o : Orders TxHeight T} {e cs}
    (h : electrumFinish t o so get (.ok e) = .ok (t', .ok cs)) :
    ∃ txs sc, e.fetch t.chainGraph get = some txs ∧ e.intoKeychainScan txs t.chainGraph so = .ok sc ∧ t.applyUpdate sc o = some (t', .ok cs) := by
  unfold electrumFinish at h
  simp only at h
  cases h1 : e.fetch t.chainGraph get with
  | none => rw [h1] at h; cases h
  | some txs =>
    rw [h1] at h
    simp only at h
    cases h2 : e.intoKeychainScan txs t.chainGraph so with
    | error _ => rw [h2] at h; cases h
    | ok sc =>
      rw [h2] at h
      simp only at h
      cases h3 : t.applyUpdate sc o with
      | none => rw [h3] at h; cases h
      | some q => rw [h3] at h; cases h; exact ⟨txs, sc, rfl, h2, h3⟩

variable (hg : GoodCodec cd dom) (hx : Derivable ext) (hx' : ∀ d ∈ int, Derivable d) (hdist : DistinctScripts ext int)
  (hF : ∀ t v v' cmd, Synced t v → v.Sound → HasKeychains ext int t.txoutIndex → Fetch t v v' cmd → Delivery ext int t v' cmd)
  {disk : Option Bytes} {v : View P T}
include hg hx hx' hdist hF

theorem living_starts (h : Lived Fetch env cd dom cp ext int disk v) :
    (∃ disk' t e f, start cd cp ext int disk = (disk', .running t e f)) ∨ ∃ k, k < 12 ∧ disk = some (crashInCreate k) := by
  rcases (lived_inv hg hx hx' hdist hF h).2 with ⟨-, k, hk, hd⟩ | ⟨l, e, base, t, h1, h2, h3, -⟩
  · exact .inr ⟨k, hk, hd⟩
  · obtain ⟨f, tl, -, -, -, h4⟩ := start_found hg h1 h2
    rw [h3] at h4
    exact .inl ⟨_, _, _, _, h4⟩

theorem living_truth (h : Lived Fetch env cd dom cp ext int disk v) {disk' t e f}
    (hs : start cd cp ext int disk = (disk', .running t e f)) :
    v.Sound ∧ Synced t v ∧ HasKeychains ext int t.txoutIndex := by
  obtain ⟨h1, h2⟩ := lived_inv hg hx hx' hdist hF h
  obtain ⟨base, l, tl, g1, g2, g3, -⟩ := start_running hg hs
  rcases h2 with ⟨h2, -⟩ | ⟨l', e', base', t', k1, k2, k3, k4⟩
  · rw [h2] at g2; cases g2
  · rw [g1] at k1; cases k1
    rw [g2] at k2; cases k2
    rw [g3] at k3; cases k3
    exact ⟨h1, k4, (started_parts hx hx' g1 g3).2.1⟩

theorem living_atomic (h : Lived Fetch env cd dom cp ext int disk v) {disk' t e f}
    (hs : start cd cp ext int disk = (disk', .running t e f)) {v' cmd} (hfe : Fetch t v v' cmd) {ok1 ok2 : Bool} {es : List (Event P T)}
    (hcut : Cut (runCommand env t cmd ok1 ok2).1 es) {f' : KeychainStore} (he : Effects cd f es f') (hn : NoDoubleFault e es)
    (hd : ∀ c, Event.stored c ∈ es ∨ Event.storeFailed c ∈ es → dom c) :
    ∃ t', (runCommand env t cmd true true).2 = some t' ∧ Synced t' v' ∧
      ∃ disk'' t'' e'' f'', start cd cp ext int (some f'.bytes) = (disk'', .running t'' e'' f'') ∧ (t'' = t ∨ t'' = t') ∧
        (es = (runCommand env t cmd true true).1 → t'' = t') ∧
        (t'' = t' → Lived Fetch env cd dom cp ext int (some f'.bytes) v' ∨ t' = t) ∧
        (t'' = t → Lived Fetch env cd dom cp ext int (some f'.bytes) v ∨ t' = t) := by
  obtain ⟨hv, hsy, hk⟩ := living_truth hg hx hx' hdist hF h hs
  obtain ⟨t', cs, q1, q2, q3⟩ := delivery_command (Key := Key) (Ak := Ak) (Sec := Sec) (XPrv := XPrv) (Msg := Msg) (hF _ _ _ _ hsy hv hk hfe)
  refine ⟨t', (q3 env true true).2 rfl, q2, ?_⟩
  obtain ⟨base, l, g1, g2, g3, x, e', g4, g6, g5⟩ := run_found hg hs hcut he hn hd
  obtain ⟨p1, p2, p3, p4⟩ := started_parts hx hx' g1 g3
  have hsub : x.Sublist [cs] := by rw [(q3 env ok1 ok2).1] at g5; exact g5.trans (tried_store _ _)
  have hx1 : x = [] ∨ x = [cs] := by
    cases hsub with
    | cons _ h => rw [List.sublist_nil] at h; exact .inl h
    | cons_cons _ h => rw [List.sublist_nil] at h; exact .inr (by rw [h])
  obtain ⟨f2, tl, -, -, -, s1⟩ := start_found hg g1 g4
  rcases hx1 with rfl | rfl
  · rw [List.append_nil] at g4 s1
    rw [g3] at s1
    have hc : changesetsIn cd (some f'.bytes) = changesetsIn cd disk := (changesetsIn_eq (x := []) g2 (by rw [List.append_nil]; exact g4)).2 rfl
    have hfin : es = (runCommand env t cmd true true).1 → t = t' := by
      intro hes
      rw [hes, (q3 env true true).1] at g6
      have hemp : cs.isEmpty = true := by
        rcases store_cases cs true with ⟨h', -⟩ | ⟨-, -, h'⟩ | ⟨-, h', -⟩
        · exact h'
        · rw [h'] at g6
          have h0 := survives_disk g6
          cases h0
        · cases h'
      exact (applyEmpty p1 hemp q1).symm
    refine ⟨_, t, _, _, s1, .inl rfl, hfin, fun ht => .inr ht.symm, fun _ => .inl ?_⟩
    exact .fetched t e f f' cmd ok1 ok2 v h hs hfe hcut he hn hd (.inr ⟨rfl, hc⟩)
  · have hr : base.replay (l ++ [cs]) = some t' := by
      rw [replay_append, g3]; show t.replay [cs] = _; rw [replay_cons, q1]; rfl
    rw [hr] at s1
    have hc : changesetsIn cd (some f'.bytes) ≠ changesetsIn cd disk := fun hc => by
      have := (changesetsIn_eq g2 g4).1 hc
      cases this
    refine ⟨_, t', _, _, s1, .inr rfl, fun _ => rfl, fun _ => .inl ?_, fun ht => .inr ht⟩
    exact .fetched t e f f' cmd ok1 ok2 v' h hs hfe hcut he hn hd (.inl ⟨rfl, .inl hc⟩)

end Generic

/-! ## the esplora example -/
section Esplora
variable {D Key Ak Sec XPrv Msg T : Type} [DescriptorOps D] [DecidableEq D] [LinearOrder T]
  [AsTransaction T] [LawfulTx T] [DecidableEq Key]
  {cd : Codec (KeychainChangeSet Keychain ConfirmationTime T)} {dom : KeychainChangeSet Keychain ConfirmationTime T → Prop}
  {env : Env D Key Ak Sec XPrv Msg T} {ext : D} {int : Option D} {cp : Nat}
  (hg : GoodCodec cd dom) (hx : Derivable ext) (hx' : ∀ d ∈ int, Derivable d) (hdist : DistinctScripts ext int)
  {disk : Option Bytes} {v : View ConfirmationTime T}
include hg hx hx' hdist

/-- **C79** whatever the wallet went through, the program starts, unless its very first run died within the first 12 bytes of the
file -/
theorem C79_esplora_starts (h : Lived EsploraFetch env cd dom cp ext int disk v) :
    (∃ disk' t e f, start cd cp ext int disk = (disk', .running t e f)) ∨ ∃ k, k < 12 ∧ disk = some (crashInCreate k) :=
  living_starts hg hx hx' hdist esplora_delivers h

/-- **C79** ... and then all blocks of the wallet are in the best chain of the moment of the last command in the file, and what it has as
confirmed is confirmed there, at that position -/
theorem C79_esplora_truth (h : Lived EsploraFetch env cd dom cp ext int disk v) {disk' t e f}
    (hs : start cd cp ext int disk = (disk', .running t e f)) :
    v.Sound ∧ Synced t v ∧ (∀ k b, t.chainGraph.chain.checkpointAt k = some b → v.header k = some b.hash) ∧
    ∀ x p k, t.chainGraph.chain.txPosition x = some p → ChainPosition.height p = .confirmed k → ∃ y, v.find x = some (y, p) := by
  obtain ⟨h1, h2, -⟩ := living_truth hg hx hx' hdist esplora_delivers h hs
  exact ⟨h1, h2, h2.headers,
    fun x p k hp hk => h2.ready.truthful x p k hp hk fun a b _ hb => h2.headers a b hb⟩

/-- **C79** the next `Scan` or `Sync` against an honest server succeeds: it does what it does to a wallet that has never been restarted
(`esploraScan`, `esploraSync` of `C63`), and writes it down -/
theorem C79_esplora_commands (h : Lived EsploraFetch env cd dom cp ext int disk v) {disk' t e f}
    (hst : start cd cp ext int disk = (disk', .running t e f)) {s : Esplora.Server T}
    {w : Esplora.World T} (hs : s.Shows w) (hl : Later t v w) (o o' : Orders ConfirmationTime T) (par fuel n time : Nat)
    (hf : ∀ spk, (w.confirmed spk).length ≤ fuel) :
    (∀ gap, ∃ cmd t' cs, EsploraFetch t v (viewOf w) cmd ∧ esploraScan s o o' t gap par fuel (n + 1) time = .ok (t', .ok cs) ∧
      runCommand env t cmd true true = ((store cs true).1, some t') ∧ Synced t' (viewOf w)) ∧
    ∀ so fl, (∀ l, syncSpks t fl.resolve = some l → l.length ≤ u64Max) → ∃ cmd t' cs, EsploraFetch t v (viewOf w) cmd ∧
      esploraSync s o o' so t fl par fuel (n + 1) time = .ok (t', .ok cs) ∧
      runCommand env t cmd true true = ((store cs true).1, some t') ∧ Synced t' (viewOf w) := by
  obtain ⟨hv, hsy, -⟩ := living_truth hg hx hx' hdist esplora_delivers h hst
  have hready := hsy.moves hv hl.kin hl.below hl.covered
  have run : ∀ sc t' cs, t.applyUpdate sc o' = some (t', .ok cs) →
      runCommand env t (.syncEsplora sc o') true true = ((store cs true).1, some t') := by
    intro sc t' cs hu
    unfold runCommand syncEsplora
    simp only
    rw [hu]
  constructor
  · intro gap
    obtain ⟨t1, cs1, la, h1, h2, -⟩ := scan_after hs hl.sound hl.indexed hready o o' gap par fuel n time hf
    have h1' := h1
    unfold esploraScan finish at h1
    cases hsc : Esplora.scan s o t.chainGraph.chain.checkpoints par fuel (n + 1) Keychain (spksOfAllKeychains t.txoutIndex) [] [] gap time with
    | ok sc =>
      rw [hsc] at h1
      simp only at h1
      cases hu : t.applyUpdate sc o' with
      | none => rw [hu] at h1; cases h1
      | some q =>
        rw [hu] at h1
        cases h1
        exact ⟨_, t1, cs1, .scan s w o o' gap par fuel n time sc hs hl hf hsc, h1', run _ _ _ hu, h2.synced⟩
    | _ => rw [hsc] at h1; cases h1
  · intro so fl hlen
    obtain ⟨t1, cs1, h1, h2⟩ := sync_after hs hl.sound hl.indexed hready o o' so fl par fuel n time hf hlen
    have h1' := h1
    unfold esploraSync finish at h1
    cases hspks : syncSpks t fl.resolve with
    | none => rw [hspks] at h1; cases h1
    | some spks =>
    cases htx : syncTxids t fl.resolve with
    | none => rw [hspks, htx] at h1; cases h1
    | some txids =>
    rw [hspks, htx] at h1
    simp only at h1
    cases hsc : Esplora.scanWithoutKeychain s o t.chainGraph.chain.checkpoints spks txids (syncOutpoints t so fl.resolve) par fuel (n + 1) time with
    | ok u =>
      rw [hsc] at h1
      simp only [mapOut] at h1
      cases hu : t.applyUpdate (scanOfGraph u) o' with
      | none => rw [hu] at h1; cases h1
      | some q =>
        rw [hu] at h1
        cases h1
        exact ⟨_, t1, cs1, .sync s w o o' so fl par fuel n time spks txids u hs hl hf hspks (hlen _ hspks) htx hsc, h1', run _ _ _ hu, h2.synced⟩
    | _ => rw [hsc] at h1; cases h1

/-- **C79** a command that an honest server answers is atomic: wherever the program dies, and whatever write fails, the next start has
exactly the wallet before the command or exactly the wallet after it - after it, if the command ended -/
theorem C79_esplora_atomic (h : Lived EsploraFetch env cd dom cp ext int disk v) {disk' t e f}
    (hs : start cd cp ext int disk = (disk', .running t e f)) {v' cmd} (hfe : EsploraFetch t v v' cmd) {ok1 ok2 : Bool}
    {es : List (Event ConfirmationTime T)}
    (hcut : Cut (runCommand env t cmd ok1 ok2).1 es) {f' : KeychainStore} (he : Effects cd f es f') (hn : NoDoubleFault e es)
    (hd : ∀ c, Event.stored c ∈ es ∨ Event.storeFailed c ∈ es → dom c) :
    ∃ t', (runCommand env t cmd true true).2 = some t' ∧ Synced t' v' ∧
      ∃ disk'' t'' e'' f'', start cd cp ext int (some f'.bytes) = (disk'', .running t'' e'' f'') ∧ (t'' = t ∨ t'' = t') ∧
        (es = (runCommand env t cmd true true).1 → t'' = t') := by
  obtain ⟨t', h1, h2, d, t'', e'', f'', h3, h4, h5, -⟩ := living_atomic hg hx hx' hdist esplora_delivers h hs hfe hcut he hn hd
  exact ⟨t', h1, h2, d, t'', e'', f'', h3, h4, h5⟩

/-- **C79** restoring a wallet: without a file, `Scan` against an honest server; the next start shows exactly the unspent outputs of
the scripts that were asked for, at their positions -/
theorem C79_esplora_restores {disk' t e f} (hst : start cd cp ext int none = (disk', .running t e f)) {s : Esplora.Server T}
    {w : Esplora.World T} (hs : s.Shows w) (hw : w.Sound) (hi : Indexed w) (o o' : Orders ConfirmationTime T) (gap par fuel n time : Nat)
    (hf : ∀ spk, (w.confirmed spk).length ≤ fuel) :
    ∃ sc t' cs, Esplora.scan s o t.chainGraph.chain.checkpoints par fuel (n + 1) Keychain (spksOfAllKeychains t.txoutIndex) [] [] gap time = .ok sc ∧
      runCommand env t (.syncEsplora sc o') true true = ((store cs true).1, some t') ∧
      (dom cs → ∀ f', Effects cd f (store cs true).1 f' →
        ∃ disk'' e'' f'', start cd cp ext int (some f'.bytes) = (disk'', .running t' e'' f'')) ∧
      ∀ (so : SpendOrder) k i (x : TxOut) op p, Asked t w gap (max par 1) k i x.spk → OutputIn (viewOf w).find op x p →
        ((∃ g, ((k, i), g) ∈ t'.fullUtxos so ∧ g.outpoint = op ∧ g.txout = x ∧ g.chainPosition = p) ↔
          ¬ ∃ y, SpentIn (viewOf w).find op y) := by
  have hlive : Lived EsploraFetch env cd dom cp ext int none (viewOf w) := .new (viewOf_sound hw hi)
  obtain ⟨hv, hsy, hk⟩ := living_truth hg hx hx' hdist esplora_delivers hlive hst
  obtain ⟨he0, hnew⟩ := new_parts hg hst
  have hlat : Later t (viewOf w) w := by
    refine ⟨hw, hi, ⟨fun _ _ _ _ _ _ => rfl, fun _ _ _ _ _ h1 _ _ _ => h1⟩, hsy.ready.below, fun x p k hp => ?_⟩
    exact absurd (by unfold InChain; rw [hp]; simp) (hnew.2 x)
  obtain ⟨h1, -⟩ := C79_esplora_commands (env := env) hg hx hx' hdist hlive hst hs hlat o o' par fuel n time hf
  obtain ⟨cmd, t', cs, -, h3, -, -⟩ := h1 gap
  have h3' := h3
  unfold esploraScan finish at h3
  cases hsc : Esplora.scan s o t.chainGraph.chain.checkpoints par fuel (n + 1) Keychain (spksOfAllKeychains t.txoutIndex) [] [] gap time with
  | ok sc =>
    rw [hsc] at h3
    simp only at h3
    cases hu : t.applyUpdate sc o' with
    | none => rw [hu] at h3; cases h3
    | some q =>
      rw [hu] at h3
      cases h3
      have hrun : runCommand env t (.syncEsplora sc o') true true = ((store cs true).1, some t') := by
        unfold runCommand syncEsplora
        simp only
        rw [hu]
      refine ⟨sc, t', cs, rfl, hrun, fun hdom f' he => ?_, fun so k i x op p ha hout =>
        C63_scan_restores hs hw hi hsy.ready o o' gap par fuel n time hf h3' hnew so ha op p hout⟩
      obtain ⟨t2, k1, -, d2, t3, e3, f3, k2, -, k3⟩ := C79_esplora_atomic (env := env) hg hx hx' hdist hlive hst
        (.scan s w o o' gap par fuel n time sc hs hlat hf hsc) (ok1 := true) (ok2 := true) (es := (runCommand env t (.syncEsplora sc o') true true).1) (.between List.prefix_rfl) (by rw [hrun]; exact he)
        (fun he => absurd he0 he) (by rw [hrun]; exact store_dom hdom)
      have := k3 rfl
      rw [hrun] at k1
      cases k1
      subst this
      exact ⟨_, _, _, k2⟩
  | _ => rw [hsc] at h3; cases h3

end Esplora

/-! ## the electrum example -/
section Electrum
variable {D Key Ak Sec XPrv Msg T : Type} [DescriptorOps D] [DecidableEq D] [LinearOrder T]
  [AsTransaction T] [LawfulTx T] [DecidableEq Key]
  {cd : Codec (KeychainChangeSet Keychain TxHeight T)} {dom : KeychainChangeSet Keychain TxHeight T → Prop}
  {env : Env D Key Ak Sec XPrv Msg T} {ext : D} {int : Option D} {cp : Nat}
  (hg : GoodCodec cd dom) (hx : Derivable ext) (hx' : ∀ d ∈ int, Derivable d) (hdist : DistinctScripts ext int)
  {disk : Option Bytes} {v : View TxHeight T}
include hg hx hx' hdist

/-- **C79** whatever the wallet went through, the program starts, unless its very first run died within the first 12 bytes of the
file -/
theorem C79_electrum_starts (h : Lived ElectrumFetch env cd dom cp ext int disk v) :
    (∃ disk' t e f, start cd cp ext int disk = (disk', .running t e f)) ∨ ∃ k, k < 12 ∧ disk = some (crashInCreate k) :=
  living_starts hg hx hx' hdist electrum_delivers h

/-- **C79** ... and then all blocks of the wallet are in the best chain of the moment of the last command in the file, and what it has as
confirmed is confirmed there, at that height -/
theorem C79_electrum_truth (h : Lived ElectrumFetch env cd dom cp ext int disk v) {disk' t e f}
    (hs : start cd cp ext int disk = (disk', .running t e f)) :
    v.Sound ∧ Synced t v ∧ (∀ k b, t.chainGraph.chain.checkpointAt k = some b → v.header k = some b.hash) ∧
    ∀ x k, t.chainGraph.chain.txPosition x = some (.confirmed k) → ∃ y, v.find x = some (y, .confirmed k) := by
  obtain ⟨h1, h2, -⟩ := living_truth hg hx hx' hdist electrum_delivers h hs
  exact ⟨h1, h2, h2.headers, fun x k hp => h2.ready.truthful x _ k hp rfl fun a b _ hb => h2.headers a b hb⟩

/-- **C79** the next `Scan` or `Sync` against an honest server succeeds (`Sync` if the server knows the unspent outputs it is asked for):
it does what it does to a wallet that has never been restarted (`electrumScan`, `electrumSync` of `C64`), and writes it down -/
theorem C79_electrum_commands (h : Lived ElectrumFetch env cd dom cp ext int disk v) {disk' t e f}
    (hst : start cd cp ext int disk = (disk', .running t e f)) {s : Electrum.Server} {get : Txid → Option T}
    {w : Electrum.World} {v' : View TxHeight T} (hs : ShowsView s get w v') (hl : Follows t v v') (ho : Electrum.Order) (so : SpendOrder)
    (o : Orders TxHeight T) (bs n time : Nat) (hbs : 0 < bs) :
    (∀ gap, ∃ cmd t' cs, ElectrumFetch t v v' cmd ∧ electrumScan s get ho so o t gap bs (n + 1) time = .ok (t', .ok cs) ∧
      runCommand env t cmd true true = ((store cs true).1, some t') ∧ Synced t' v') ∧
    ∀ so' fl, (∀ l, syncSpks t fl.resolve = some l → l.length ≤ u64Max) → (fl.resolve.utxos = true → UtxosKnown t so v') →
      ∃ cmd t' cs, ElectrumFetch t v v' cmd ∧
      electrumSync s get ho so so' o t fl bs (n + 1) time = .ok (t', .ok cs) ∧
      runCommand env t cmd true true = ((store cs true).1, some t') ∧ Synced t' v' := by
  obtain ⟨hv, hsy, -⟩ := living_truth hg hx hx' hdist electrum_delivers h hst
  have hready := hsy.moves hv hl.kin hl.below hl.covered
  have run : ∀ sc t' cs, t.applyUpdate sc o = some (t', .ok cs) →
      runCommand env t (.syncElectrum sc o) true true = ((store cs true).1, some t') := fun sc t' cs hu => electrum_run hu
  constructor
  · intro gap
    obtain ⟨t1, cs1, la, h1, h2, -⟩ := escan_after hs hready ho so o gap bs n time hbs
    have h1' := h1
    unfold electrumScan at h1
    cases hsc : Electrum.scan s ho t.chainGraph.chain.checkpoints (spksOfAllKeychains t.txoutIndex) [] [] gap bs (n + 1) time with
    | ok e =>
      rw [hsc] at h1
      obtain ⟨txs, sc, a1, a2, a3⟩ := finish_parts h1
      exact ⟨_, t1, cs1, .scan s get w v' ho so o gap bs n time e txs sc hs hl hbs hsc a1 a2, h1', run _ _ _ a3, h2.synced⟩
    | _ => rw [hsc] at h1; cases h1
  · intro so' fl hlen hkn
    obtain ⟨t1, cs1, h1, h2⟩ := esync_after hs hready ho so so' o fl bs n time hbs hlen hkn
    have h1' := h1
    unfold electrumSync at h1
    cases hspks : syncSpks t fl.resolve with
    | none => rw [hspks] at h1; cases h1
    | some spks =>
    cases htx : syncTxids t fl.resolve with
    | none => rw [hspks, htx] at h1; cases h1
    | some txids =>
    rw [hspks, htx] at h1
    simp only at h1
    generalize hsc : (updateOfChain (Electrum.scanWithoutKeychain s ho t.chainGraph.chain.checkpoints spks txids
      (syncOutpoints t so fl.resolve) bs (n + 1) time) : Electrum.Out (Electrum.ElectrumUpdate Keychain TxHeight)) = R at h1
    cases R with
    | ok e =>
      obtain ⟨txs, sc, a1, a2, a3⟩ := finish_parts h1
      exact ⟨_, t1, cs1, .sync s get w v' ho so so' o fl bs n time spks txids e txs sc hs hl hbs hspks (hlen _ hspks) htx hsc a1 a2, h1',
        run _ _ _ a3, h2.synced⟩
    | _ => cases h1

/-- **C79** a command that an honest server answers is atomic: wherever the program dies, and whatever write fails, the next start has
exactly the wallet before the command or exactly the wallet after it - after it, if the command ended -/
theorem C79_electrum_atomic (h : Lived ElectrumFetch env cd dom cp ext int disk v) {disk' t e f}
    (hs : start cd cp ext int disk = (disk', .running t e f)) {v' cmd} (hfe : ElectrumFetch t v v' cmd) {ok1 ok2 : Bool}
    {es : List (Event TxHeight T)}
    (hcut : Cut (runCommand env t cmd ok1 ok2).1 es) {f' : KeychainStore} (he : Effects cd f es f') (hn : NoDoubleFault e es)
    (hd : ∀ c, Event.stored c ∈ es ∨ Event.storeFailed c ∈ es → dom c) :
    ∃ t', (runCommand env t cmd true true).2 = some t' ∧ Synced t' v' ∧
      ∃ disk'' t'' e'' f'', start cd cp ext int (some f'.bytes) = (disk'', .running t'' e'' f'') ∧ (t'' = t ∨ t'' = t') ∧
        (es = (runCommand env t cmd true true).1 → t'' = t') := by
  obtain ⟨t', h1, h2, d, t'', e'', f'', h3, h4, h5, -⟩ := living_atomic hg hx hx' hdist electrum_delivers h hs hfe hcut he hn hd
  exact ⟨t', h1, h2, d, t'', e'', f'', h3, h4, h5⟩

/-- **C79** restoring a wallet: without a file, `Scan` against an honest server; the next start shows exactly the unspent outputs of
the scripts that were asked for, at their heights -/
theorem C79_electrum_restores {disk' t e f} (hst : start cd cp ext int none = (disk', .running t e f)) {s : Electrum.Server}
    {get : Txid → Option T} {w : Electrum.World} {v' : View TxHeight T} (hs : ShowsView s get w v') (ho : Electrum.Order) (so : SpendOrder)
    (o : Orders TxHeight T) (gap bs n time : Nat) (hbs : 0 < bs) :
    ∃ cmd t' cs, electrumScan s get ho so o t gap bs (n + 1) time = .ok (t', .ok cs) ∧ ElectrumFetch t v' v' cmd ∧
      runCommand env t cmd true true = ((store cs true).1, some t') ∧
      (dom cs → ∀ f', Effects cd f (store cs true).1 f' →
        ∃ disk'' e'' f'', start cd cp ext int (some f'.bytes) = (disk'', .running t' e'' f'')) ∧
      ∀ (so' : SpendOrder) k i (x : TxOut) op p, ScanAsked t w gap k i x.spk → OutputIn v'.find op x p →
        ((∃ g, ((k, i), g) ∈ t'.fullUtxos so' ∧ g.outpoint = op ∧ g.txout = x ∧ g.chainPosition = p) ↔
          ¬ ∃ y, SpentIn v'.find op y) := by
  have hlive : Lived ElectrumFetch env cd dom cp ext int none v' := .new hs.sound
  obtain ⟨hv, hsy, hk⟩ := living_truth hg hx hx' hdist electrum_delivers hlive hst
  obtain ⟨he0, hnew⟩ := new_parts hg hst
  have hlat : Follows t v' v' := by
    refine ⟨⟨fun _ _ _ _ _ _ => rfl, fun _ _ _ _ _ h1 _ _ _ => h1⟩, hsy.ready.below, fun x p k hp => ?_⟩
    exact absurd (by unfold InChain; rw [hp]; simp) (hnew.2 x)
  obtain ⟨h1, -⟩ := C79_electrum_commands (env := env) hg hx hx' hdist hlive hst hs hlat ho so o bs n time hbs
  obtain ⟨cmd, t', cs, h2, h3, hrun, -⟩ := h1 gap
  refine ⟨cmd, t', cs, h3, h2, hrun, fun hdom f' he => ?_, fun so' k i x op p ha hout =>
    C64_scan_restores hs hsy.ready ho so o gap bs n time hbs h3 hnew so' ha op p hout⟩
  obtain ⟨t2, k1, -, d2, t3, e3, f3, k2, -, k3⟩ := C79_electrum_atomic (env := env) hg hx hx' hdist hlive hst
    h2 (ok1 := true) (ok2 := true) (es := (runCommand env t cmd true true).1) (.between List.prefix_rfl) (by rw [hrun]; exact he)
    (fun he => absurd he0 he) (by rw [hrun]; exact store_dom hdom)
  have := k3 rfl
  rw [hrun] at k1
  cases k1
  subst this
  exact ⟨_, _, _, k2⟩

end Electrum

/-! ## a concrete life: two addresses, a `Sync` that dies while it writes, the same again, a `Sync` of a later moment; then the chain is
reorganised -/
section Examples

abbrev LivTracker := Tracker Keychain DemoDesc TxHeight DemoTx
def livExt : DemoDesc := ⟨true, 1⟩
def livInt : Option DemoDesc := some ⟨true, 2⟩
/-- the encoding of the changesets -/
def livCodec : Codec (KeychainChangeSet Keychain TxHeight DemoTx) := Codec.changeset keychainCodec Codec.txHeight demoTxCodec (Codec.varint true)
abbrev LivFits : KeychainChangeSet Keychain TxHeight DemoTx → Prop :=
  Codec.Fits (fun _ => true = true) (fun h => ∀ n, h = .confirmed n → n < 2 ^ 32) (fun _ => True) (fun s => s < Codec.intLimit true)
theorem liv_good : GoodCodec livCodec LivFits :=
  C42_bincode
    (Codec.conv_lawful (Codec.varint_lawful false) (fun k _ => by cases k <;> decide) (fun k _ => by cases k <;> decide))
    Codec.txHeight_lawful demoTxCodec_lawful (Codec.varint_lawful true)
def livEnv : Env DemoDesc Nat Nat Nat Path Unit DemoTx where
  lib := exLib
  canDerive _ _ := some []
  trAt d i := ⟨4 * i + d.base.val, []⟩
  dustValue _ := 300
  scriptLen _ := 34
  keymap _ := some (.xprv [0])
  assetKeys := [0]
  crypto _ _ _ := exCrypto
  toT _ := d 0

theorem liv_distinct : DistinctScripts livExt livInt := by
  intro k k' d d' i j spk h h' _ _ h1 h2
  have c1 : 4 * i + d.base.val = spk := Option.some.inj h1
  have c2 : 4 * j + d'.base.val = spk := Option.some.inj h2
  unfold livExt livInt at *
  rcases h with ⟨rfl, rfl⟩ | ⟨rfl, h⟩ <;> rcases h' with ⟨rfl, rfl⟩ | ⟨rfl, h'⟩
  · exact ⟨rfl, by omega⟩
  · cases h'; simp only [Fin.val_two, Fin.val_one] at c1 c2; omega
  · cases h; simp only [Fin.val_two, Fin.val_one] at c1 c2; omega
  · cases h; cases h'; exact ⟨rfl, by omega⟩

def livEffects (f : KeychainStore) : List (Event TxHeight DemoTx) → KeychainStore
  | [] => f
  | .stored c :: es => livEffects (append livCodec f c .none).1 es
  | .storeFailed _ :: _ => f
  | _ :: es => livEffects f es

theorem livEffects_effects {f : KeychainStore} {es : List (Event TxHeight DemoTx)} (h : ∀ c, Event.storeFailed c ∉ es)
    {es' f'} (h' : Effects livCodec (livEffects f es) es' f') : Effects livCodec f (es ++ es') f' := by
  induction es generalizing f with
  | nil => exact h'
  | cons e es ih =>
    have h1 : ∀ c, Event.storeFailed c ∉ es := fun c hc => h c (List.mem_cons_of_mem _ hc)
    cases e with
    | stored c =>
      refine .stored .none ?_ (ih h1 h')
      unfold append
      split
      · rfl
      · rfl
    | storeFailed c => exact absurd (by simp) (h c)
    | shown => exact .shown (ih h1 h')
    | broadcast => exact .broadcast (ih h1 h')

/-- one run -/
def livPlay (c : LivTracker → Option (Command TxHeight DemoTx)) (x : Ending) (disk : Option Bytes) :
    Option (List (Event TxHeight DemoTx) × Bytes) :=
  match start livCodec 10 livExt livInt disk with
  | (_, .running t e f) =>
    match c t with
    | none => none
    | some cmd =>
      match x with
      | .normal => some ((runCommand livEnv t cmd true true).1, (livEffects f (runCommand livEnv t cmd true true).1).bytes)
      | .torn n k =>
        match e, (runCommand livEnv t cmd true true).1[n]? with
        | none, some (.stored c) => some ((runCommand livEnv t cmd true true).1.take n ++ [.storeFailed c],
            (append livCodec (livEffects f ((runCommand livEnv t cmd true true).1.take n)) c (.write k)).1.bytes)
        | _, _ => none
  | _ => none

theorem livPlay_parts {c x disk es b} (h : livPlay c x disk = some (es, b)) :
    ∃ disk' t e f f' cmd, start livCodec 10 livExt livInt disk = (disk', .running t e f) ∧ c t = some cmd ∧
      Cut (runCommand livEnv t cmd true true).1 es ∧ Effects livCodec f es f' ∧ NoDoubleFault e es ∧ b = f'.bytes ∧
      (x = .normal → es = (runCommand livEnv t cmd true true).1) := by
  unfold livPlay at h
  rcases hs : start (P := TxHeight) (T := DemoTx) livCodec 10 livExt livInt disk with ⟨d, r | _ | ⟨t, e, f⟩⟩ <;>
    rw [hs] at h <;> try (cases h; done)
  simp only at h
  cases hc : c t with
  | none => rw [hc] at h; cases h
  | some cmd =>
    rw [hc] at h
    simp only at h
    have hn := command_not_failed livEnv t cmd
    cases x with
    | normal =>
      simp only [Option.some.injEq, Prod.mk.injEq] at h
      obtain ⟨rfl, rfl⟩ := h
      have := livEffects_effects (f := f) hn .nil
      rw [List.append_nil] at this
      refine ⟨d, t, e, f, _, cmd, rfl, hc, .between (List.prefix_refl _), this, ?_, rfl, fun _ => rfl⟩
      intro _ pre c post he
      exact absurd (by rw [he]; simp) (hn c)
    | torn n k =>
      simp only at h
      generalize hes : (runCommand livEnv t cmd true true).1 = all at h hn
      split at h
      · rename_i c hc'
        simp only [Option.some.injEq, Prod.mk.injEq] at h
        obtain ⟨rfl, rfl⟩ := h
        refine ⟨d, t, none, f, _, cmd, rfl, hc, ?_, livEffects_effects (fun c hc => hn c (List.mem_of_mem_take hc)) (.failed (.write k) .nil),
          fun he => absurd rfl he, rfl, fun hx => by cases hx⟩
        rw [hes]
        have := getElem?_split hc'
        conv_lhs => rw [this]
        exact .writing
      · cases h

/-- the changesets that are written are in the domain of the encoding -/
def livFits (es : List (Event TxHeight DemoTx)) : Bool :=
  es.all fun | .stored c => fitsB (fun _ => true) c | .storeFailed c => fitsB (fun _ => true) c | _ => true

theorem livFits_dom {es} (h : livFits es = true) (c) (hc : Event.stored c ∈ es ∨ Event.storeFailed c ∈ es) : LivFits c := by
  unfold livFits at h
  simp only [List.all_eq_true] at h
  rcases hc with hc | hc
  · exact fits_gen _ c (h _ hc)
  · exact fits_gen _ c (h _ hc)

abbrev Liv := Lived (Msg := Unit) ElectrumFetch livEnv livCodec LivFits 10 livExt livInt

theorem liv_owner {disk v es b x} (cmd : Command TxHeight DemoTx) (h : Liv disk v) (ho : OfOwner cmd)
    (hp : livPlay (fun _ => some cmd) x disk = some (es, b)) (hf : livFits es = true) : Liv (some b) v := by
  obtain ⟨disk', t, e, f, f', cmd', h1, h2, h3, h4, h5, rfl, -⟩ := livPlay_parts hp
  cases h2
  exact .owner t e f f' cmd true true h h1 ho h3 h4 h5 (livFits_dom hf)

/-- what `Sync` against this world gets -/
def livSync (w : Esplora.World DemoTx) (t : LivTracker) : Option (Command TxHeight DemoTx) :=
  match syncSpks t plain.resolve, syncTxids t plain.resolve with
  | some spks, some txids =>
    if spks.length ≤ 1000 then
      match updateOfChain (Electrum.scanWithoutKeychain (eserver w) (HashOrder.id _) t.chainGraph.chain.checkpoints spks txids
          (syncOutpoints t soId plain.resolve) 2 1 0) with
      | .ok e =>
        match e.fetch t.chainGraph (eget w) with
        | some txs =>
          match e.intoKeychainScan txs t.chainGraph soId with
          | .ok sc => some (.syncElectrum sc (Orders.id _ _))
          | _ => none
        | none => none
      | _ => none
    else none
  | _, _ => none

theorem livSync_fetch {w : Esplora.World DemoTx} {t : LivTracker} {cmd} (h : livSync w t = some cmd) {v : View TxHeight DemoTx}
    (hs : ShowsView (eserver w) (eget w) (eworldOf w) (eviewOf w)) (hl : Follows t v (eviewOf w)) : ElectrumFetch t v (eviewOf w) cmd := by
  unfold livSync at h
  cases h1 : syncSpks t plain.resolve with
  | none => rw [h1] at h; cases h
  | some spks =>
  cases h2 : syncTxids t plain.resolve with
  | none => rw [h1, h2] at h; cases h
  | some txids =>
  rw [h1, h2] at h
  simp only at h
  split at h
  · rename_i hlen
    generalize h3 : (updateOfChain (Electrum.scanWithoutKeychain (eserver w) (HashOrder.id _) t.chainGraph.chain.checkpoints spks txids
          (syncOutpoints t soId plain.resolve) 2 1 0) : Electrum.Out (Electrum.ElectrumUpdate Keychain TxHeight)) = R at h
    cases R with
    | ok e =>
      simp only at h
      cases h4 : e.fetch t.chainGraph (eget w) with
      | none => rw [h4] at h; cases h
      | some txs =>
        rw [h4] at h
        simp only at h
        cases h5 : e.intoKeychainScan txs t.chainGraph soId with
        | error _ => rw [h5] at h; cases h
        | ok sc =>
          rw [h5] at h
          cases h
          exact .sync _ _ _ _ _ soId soId _ plain 2 0 0 spks txids e txs sc hs hl (by omega) h1 (le_trans hlen (by decide)) h2 h3 h4 h5
    | _ => cases h
  · cases h

theorem liv_sync {disk v es b} (w : Esplora.World DemoTx) (h : Liv disk v)
    (hs : ShowsView (eserver w) (eget w) (eworldOf w) (eviewOf w)) (hl : ∀ disk' t e f, start livCodec 10 livExt livInt disk = (disk', .running t e f) →
      Follows t v (eviewOf w)) (hp : livPlay (livSync w) .normal disk = some (es, b)) (hf : livFits es = true) : Liv (some b) (eviewOf w) := by
  obtain ⟨disk', t, e, f, f', cmd', h1, h2, h3, h4, h5, rfl, h7⟩ := livPlay_parts hp
  exact .fetched t e f f' cmd' true true _ h h1 (livSync_fetch h2 hs (hl _ _ _ _ h1)) h3 h4 h5 (livFits_dom hf) (.inl ⟨rfl, .inr (h7 rfl)⟩)

theorem liv_torn {disk v es b} (w : Esplora.World DemoTx) {x : Ending} (h : Liv disk v)
    (hs : ShowsView (eserver w) (eget w) (eworldOf w) (eviewOf w)) (hl : ∀ disk' t e f, start livCodec 10 livExt livInt disk = (disk', .running t e f) →
      Follows t v (eviewOf w)) (hp : livPlay (livSync w) x disk = some (es, b)) (hf : livFits es = true)
    (hc : changesetsIn livCodec (some b) = changesetsIn livCodec disk) : Liv (some b) v := by
  obtain ⟨disk', t, e, f, f', cmd', h1, h2, h3, h4, h5, rfl, h7⟩ := livPlay_parts hp
  exact .fetched t e f f' cmd' true true _ h h1 (livSync_fetch h2 hs (hl _ _ _ _ h1)) h3 h4 h5 (livFits_dom hf) (.inr ⟨rfl, hc⟩)

/-- the same chain, or a longer one -/
theorem liv_grows {disk v} (h : Liv disk v) {w : Esplora.World DemoTx} (hk : Kin v (eviewOf w)) (hw : (eviewOf w).Sound)
    (hg : w.header v.tip.height = some v.tip.hash) {disk' t e f} (hs : start livCodec 10 livExt livInt disk = (disk', .running t e f)) :
    Follows t v (eviewOf w) := by
  obtain ⟨hv, hsy, -⟩ := C79_electrum_truth liv_good (demo_derivable _) (fun d _ => demo_derivable d) liv_distinct h hs
  exact ⟨hk, fun k hc => le_trans (hsy.ready.below k hc) ((hw.headers _).1 ⟨_, hg⟩), covered_of_tip hsy hv hk hg⟩

def liv1 : Option (List (Event TxHeight DemoTx) × Bytes) := livPlay (fun _ => some (.address .next)) .normal none
def liv2 : Option (List (Event TxHeight DemoTx) × Bytes) := liv1.bind fun r => livPlay (fun _ => some (.address .new)) .normal (some r.2)
def liv3 : Option (List (Event TxHeight DemoTx) × Bytes) := liv2.bind fun r => livPlay (livSync exW0) (.torn 0 5) (some r.2)
def liv4 : Option (List (Event TxHeight DemoTx) × Bytes) := liv3.bind fun r => livPlay (livSync exW0) .normal (some r.2)
def liv5 : Option (List (Event TxHeight DemoTx) × Bytes) := liv4.bind fun r => livPlay (livSync exW) .normal (some r.2)


theorem liv_steps : ∃ r3 r4 r5, liv3 = some r3 ∧ liv4 = some r4 ∧ liv5 = some r5 ∧ Liv (some r3.2) (eviewOf exW0) ∧
    Liv (some r4.2) (eviewOf exW0) ∧ Liv (some r5.2) (eviewOf exW) := by
  have hok : OkList [(0, some (2, 5)), (1, some (4, 7))] 4 := by decide
  have hv0 : (eviewOf exW0).Sound := eviewOf_sound (sound_worldOf hok) (indexed_worldOf hok)
  have hs0 : ShowsView (eserver exW0) (eget exW0) (eworldOf exW0) (eviewOf exW0) := showsView_of hok (by decide)
  have hs : ShowsView (eserver exW) (eget exW) (eworldOf exW) (eviewOf exW) := showsView_of exL_ok (by decide)
  have hk0 : Kin (eviewOf exW0) (eviewOf exW0) :=
    kin_eview (kin_of hok hok 4 (fun _ _ => rfl) (fun a h1 _ h3 => absurd h1 (by omega)) (fun e he _ _ _ => he))
  have hk : Kin (eviewOf exW0) (eviewOf exW) :=
    kin_eview (kin_of (by decide) exL_ok 4 (fun _ _ => rfl) (fun a h1 _ h3 => absurd h1 (by omega)) (by decide))
  have hb : (match liv1, liv2, liv3, liv4, liv5 with
    | some r1, some r2, some r3, some r4, some r5 => livFits r1.1 && livFits r2.1 && livFits r3.1 && livFits r4.1 && livFits r5.1
    | _, _, _, _, _ => false) = true := by decide +kernel
  have hc : (match liv2, liv3 with
    | some r2, some r3 => decide (changesetsIn livCodec (some r3.2) = changesetsIn livCodec (some r2.2))
    | _, _ => false) = true := by decide +kernel
  rcases h1 : liv1 with _ | r1
  · rw [h1] at hb; cases hb
  rcases h2 : liv2 with _ | r2
  · rw [h1, h2] at hb; cases hb
  rcases h3 : liv3 with _ | r3
  · rw [h1, h2, h3] at hb; cases hb
  rcases h4 : liv4 with _ | r4
  · rw [h1, h2, h3, h4] at hb; cases hb
  rcases h5 : liv5 with _ | r5
  · rw [h1, h2, h3, h4, h5] at hb; cases hb
  rw [h1, h2, h3, h4, h5] at hb
  rw [h2, h3] at hc
  simp only [Bool.and_eq_true, decide_eq_true_eq] at hb hc
  obtain ⟨⟨⟨⟨b1, b2⟩, b3⟩, b4⟩, b5⟩ := hb
  have e1 : livPlay (fun _ => some (.address .next)) .normal none = some r1 := h1
  have e2 : livPlay (fun _ => some (.address .new)) .normal (some r1.2) = some r2 := by
    unfold liv2 at h2; rw [h1] at h2; exact h2
  have e3 : livPlay (livSync exW0) (.torn 0 5) (some r2.2) = some r3 := by
    unfold liv3 at h3; rw [h2] at h3; exact h3
  have e4 : livPlay (livSync exW0) .normal (some r3.2) = some r4 := by
    unfold liv4 at h4; rw [h3] at h4; exact h4
  have e5 : livPlay (livSync exW) .normal (some r4.2) = some r5 := by
    unfold liv5 at h5; rw [h4] at h5; exact h5
  have l0 : Liv none (eviewOf exW0) := .new hv0
  have l1 := liv_owner (.address .next) l0 trivial e1 b1
  have l2 := liv_owner (.address .new) l1 trivial e2 b2
  have l3 := liv_torn exW0 l2 hs0 (fun _ _ _ _ h => liv_grows l2 hk0 hv0 rfl h) e3 b3 hc
  have l4 := liv_sync exW0 l3 hs0 (fun _ _ _ _ h => liv_grows l3 hk0 hv0 rfl h) e4 b4
  have l5 := liv_sync exW l4 hs (fun _ _ _ _ h => liv_grows l4 hk hs.sound rfl h) e5 b5
  exact ⟨r3, r4, r5, rfl, rfl, rfl, l3, l4, l5⟩

/-- the life above meets the hypotheses of the theorems: its third run died while it wrote what the server had shown; the file then
ends in the middle of an entry, and the next start has the wallet before.  At the end the wallet has the tip of the world, the first
payment as confirmed and spent, and shows the second one, which is in the mempool, as unspent. -/
example : ∃ r3 r5, liv3 = some r3 ∧ liv5 = some r5 ∧ Liv (some r3.2) (eviewOf exW0) ∧ Liv (some r5.2) (eviewOf exW) ∧
    (found livCodec (some r3.2)).map (fun x => (x.1.length, x.2)) = some (2, some .eof) ∧
    ∃ disk' t e f, start livCodec 10 livExt livInt (some r5.2) = (disk', .running t e f) ∧ Synced t (eviewOf exW) ∧
      t.chainGraph.chain.latestCheckpoint = some ⟨6, 106⟩ ∧ t.chainGraph.chain.txPosition (dId 0) = some (.confirmed 2) ∧
      (t.fullUtxos soId).map (fun e => (e.1, e.2.outpoint, e.2.txout.value)) = [((Keychain.external, 1), ⟨dId 3, 0⟩, 18)] := by
  obtain ⟨r3, r4, r5, h3, h4, h5, l3, l4, l5⟩ := liv_steps
  have hf : liv3.bind (fun r => (found livCodec (some r.2)).map (fun x => (x.1.length, x.2))) = some (2, some .eof) := by decide +kernel
  have hb : (match liv5 with
    | some r => match start livCodec 10 livExt livInt (some r.2) with
      | (_, .running t _ _) => decide (t.chainGraph.chain.latestCheckpoint = some ⟨6, 106⟩) &&
        decide (t.chainGraph.chain.txPosition (dId 0) = some (.confirmed 2)) &&
        decide ((t.fullUtxos soId).map (fun e => (e.1, e.2.outpoint, e.2.txout.value)) = [((Keychain.external, 1), ⟨dId 3, 0⟩, 18)])
      | _ => false
    | _ => false) = true := by decide +kernel
  rw [h3] at hf
  rw [h5] at hb
  simp only at hb
  rcases hs : start (P := TxHeight) (T := DemoTx) livCodec 10 livExt livInt (some r5.2) with ⟨d', r | _ | ⟨t, e, f⟩⟩ <;>
    rw [hs] at hb <;> try (cases hb; done)
  simp only [Bool.and_eq_true, decide_eq_true_eq] at hb
  exact ⟨r3, r5, h3, h5, l3, l5, hf, d', t, e, f, hs,
    (C79_electrum_truth liv_good (demo_derivable _) (fun d _ => demo_derivable d) liv_distinct l5 hs).2.1, hb.1.1, hb.1.2, hb.2⟩

/-- ... and after a reorganisation from block 4 on the next `Sync` succeeds (`C79_electrum_commands`) -/
example : ∃ r5 disk' t e f, liv5 = some r5 ∧ Liv (some r5.2) (eviewOf exW) ∧ start livCodec 10 livExt livInt (some r5.2) = (disk', .running t e f) ∧
    Follows t (eviewOf exW) (eviewOf exW2) ∧ ∃ cmd t' cs, ElectrumFetch t (eviewOf exW) (eviewOf exW2) cmd ∧
      runCommand livEnv t cmd true true = ((store cs true).1, some t') ∧ Synced t' (eviewOf exW2) := by
  obtain ⟨r3, r4, r5, h3, h4, h5, l3, l4, l5⟩ := liv_steps
  have hb : (match liv5 with
    | some r => match start livCodec 10 livExt livInt (some r.2) with
      | (_, .running t _ _) => decide (t.chainGraph.chain.checkpoints.entries = [(4, 104), (6, 106)]) &&
        decide ((t.fullUtxos soId).map (fun e => e.2.outpoint.txid) = [dId 3]) &&
        decide (((syncSpks t plain.resolve).map List.length).all (fun n => decide (n ≤ 1000)) = true)
      | _ => false
    | _ => false) = true := by decide +kernel
  rw [h5] at hb
  simp only at hb
  rcases hs : start (P := TxHeight) (T := DemoTx) livCodec 10 livExt livInt (some r5.2) with ⟨d', r | _ | ⟨t, e, f⟩⟩ <;>
    rw [hs] at hb <;> try (cases hb; done)
  simp only [Bool.and_eq_true, decide_eq_true_eq] at hb
  obtain ⟨⟨hcps, hut⟩, hlen⟩ := hb
  have hok : OkList exL2 7 := by decide
  have hfol : Follows t (eviewOf exW) (eviewOf exW2) := by
    refine ⟨kin_eview (kin_of exL_ok hok 3 ?_ ?_ (by decide)), ?_, ?_⟩
    · intro a ha; unfold exHash2; rw [if_pos ha]; rfl
    · intro a _ _ ha; unfold exHash2 exHash; rw [if_neg (by omega)]; intro h; have h' : (200 + a : Nat) = 100 + a := h; omega
    · rintro h ⟨b, hb⟩
      unfold SparseChain.checkpointAt at hb
      obtain ⟨x, hx, -⟩ := Option.map_eq_some_iff.1 hb
      have := OMap.mem_entries.2 hx
      rw [hcps] at this
      simp at this
      rcases this with ⟨rfl, -⟩ | ⟨rfl, -⟩ <;> decide
    · intro x p k hp hk hne
      have hk3 : 3 < k := by
        by_contra hle
        apply hne
        have h1 : k ≤ 3 := by omega
        show (if k ≤ 7 then some (exHash2 k) else none) = (if k ≤ 6 then some (exHash k) else none)
        rw [if_pos (by omega), if_pos (by omega)]
        unfold exHash2 exHash
        rw [if_pos h1]
      refine ⟨4, ⟨4, 104⟩, hk3, ?_, by decide⟩
      unfold SparseChain.checkpointAt
      rw [OMap.mem_entries.1 (show (4, 104) ∈ t.chainGraph.chain.checkpoints.entries by rw [hcps]; simp)]
      rfl
  refine ⟨r5, d', t, e, f, h5, l5, hs, hfol, ?_⟩
  obtain ⟨cmd, t', cs, k1, -, k2, k3⟩ := (C79_electrum_commands liv_good (demo_derivable _) (fun d _ => demo_derivable d) liv_distinct l5 hs
    (showsView_of hok (by decide)) hfol (HashOrder.id _) soId (Orders.id _ _) 2 0 0 (by omega)).2 soId plain (by
      intro l hl
      rw [hl] at hlen
      have : l.length ≤ 1000 := by simpa using hlen
      exact le_trans this (by decide)) (by
      intro _ g hg
      have : g.2.outpoint.txid ∈ (t.fullUtxos soId).map (fun e => e.2.outpoint.txid) := List.mem_map.2 ⟨g, hg, rfl⟩
      rw [hut] at this
      simp at this
      rw [this]
      exact ⟨_, eviewOf_find.2 ⟨(d 3, some (6, 9)), (worldOf_find hok).2 ⟨3, rfl, rfl, by decide⟩, rfl⟩⟩)
  exact ⟨cmd, t', cs, k1, k2, k3⟩

end Examples

end Verif.Cli
