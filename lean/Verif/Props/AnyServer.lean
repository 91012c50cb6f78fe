import Verif.Lemmas.AnyServer2
import Verif.Props.Sync
import Verif.Props.SyncElectrum2

/-!
# C65: what no server can do to a wallet of the examples, and what a lying server can

`Scan` and `Sync` of the two example wallets, with a server about which nothing is assumed: it may lie, contradict itself, or change
between any two answers.  (Only two answers are excluded, because they make the code panic or leave the model: the block height
`u32::MAX`, and, with electrum, transactions without outputs.)
-/

namespace Verif.Sync
open Verif Spec Props SparseChain ChainGraph

section
variable {K D T : Type} [LinearOrder K] [DescriptorOps D] [DecidableEq D] [LinearOrder T] [AsTransaction T] [LawfulTx T]

/-! ## one command of the esplora example -/

variable {t : Tracker K D ConfirmationTime T} (h : Healthy t) (s : Esplora.Server T) (o o' : Orders ConfirmationTime T)
  (hsm : ∀ τ h, s.height τ = some h → h < u32Max)
include h hsm

/-- **C65** no server makes `Scan` or `Sync` panic -/
theorem C65_never_panics (gap par fuel n time : Nat) (so : SpendOrder) (f : Flags) :
    esploraScan s o o' t gap par fuel n time ≠ .panic ∧ esploraSync s o o' so t f par fuel n time ≠ .panic :=
  ⟨(scan_any h s o o' gap par fuel n time hsm).1, (sync_any h s o o' so f par fuel n time hsm).1⟩

/-- **C65** a refused update changes nothing -/
theorem C65_refused_changes_nothing (gap par fuel n time : Nat) (so : SpendOrder) (f : Flags) (t' e) :
    (esploraScan s o o' t gap par fuel n time = .ok (t', .error e) → t' = t) ∧
    (esploraSync s o o' so t f par fuel n time = .ok (t', .error e) → t' = t) :=
  ⟨fun hr => ((scan_any h s o o' gap par fuel n time hsm).2 _ _ hr).2.1 e rfl,
   fun hr => ((sync_any h s o o' so f par fuel n time hsm).2 _ _ hr).2.1 e rfl⟩

/-- **C65** after `Scan` or `Sync` the wallet is in working order -/
theorem C65_stays_healthy (gap par fuel n time : Nat) (so : SpendOrder) (f : Flags) (t' r) :
    (esploraScan s o o' t gap par fuel n time = .ok (t', r) → Healthy t') ∧
    (esploraSync s o o' so t f par fuel n time = .ok (t', r) → Healthy t') :=
  ⟨fun hr => ((scan_any h s o o' gap par fuel n time hsm).2 _ _ hr).1,
   fun hr => ((sync_any h s o o' so f par fuel n time hsm).2 _ _ hr).1⟩

omit hsm in
omit h [LawfulTx T] in
theorem origin_of {u t' : _} (ht : Taken t u t') (hrep : ∀ y p, u.chain.txPosition y = some p → Reported s y p) {x p}
    (hp : t'.chainGraph.chain.txPosition x = some p) :
    Reported s x p ∨ t.chainGraph.chain.txPosition x = some p ∨
    (p = .unconfirmed ∧ ∃ k time f b, t.chainGraph.chain.txPosition x = some (.confirmed k time) ∧ f ≤ k ∧
      t.chainGraph.chain.checkpointAt f = some b ∧ t'.chainGraph.chain.checkpointAt f ≠ some b) := by
  rcases ht.position x p hp with h1 | ⟨-, h1⟩ | ⟨-, h1, q, k, f, b, h2, h3, h4, h5, h6⟩
  · exact .inl (hrep x p h1)
  · exact .inr (.inl h1)
  · refine .inr (.inr ⟨h1, ?_⟩)
    cases q with
    | unconfirmed => cases h3
    | confirmed k' time =>
      cases h3
      exact ⟨_, time, f, b, h2, h4, h5, h6⟩

/-- **C65** nothing gets into the wallet that the server has not reported: every position after an accepted `Scan` or `Sync` was reported
by the server, or is the old one, or is `Unconfirmed` in place of a confirmation at or above a block that has left the wallet -/
theorem C65_only_reported (gap par fuel n time : Nat) (so : SpendOrder) (f : Flags) (t' cs)
    (hr : esploraScan s o o' t gap par fuel n time = .ok (t', .ok cs) ∨ esploraSync s o o' so t f par fuel n time = .ok (t', .ok cs))
    (x : Txid) (p : ConfirmationTime) (hp : t'.chainGraph.chain.txPosition x = some p) :
    Reported s x p ∨ t.chainGraph.chain.txPosition x = some p ∨
    (p = .unconfirmed ∧ ∃ k time f b, t.chainGraph.chain.txPosition x = some (.confirmed k time) ∧ f ≤ k ∧
      t.chainGraph.chain.checkpointAt f = some b ∧ t'.chainGraph.chain.checkpointAt f ≠ some b) := by
  rcases hr with hr | hr
  · obtain ⟨u, h1, h2, -⟩ := ((scan_any h s o o' gap par fuel n time hsm).2 _ _ hr).2.2 cs rfl
    exact origin_of s h1 h2 hp
  · obtain ⟨u, h1, h2, -⟩ := ((sync_any h s o o' so f par fuel n time hsm).2 _ _ hr).2.2 cs rfl
    exact origin_of s h1 h2 hp

/-- **C65** no server makes the wallet forget: the transactions it has seen, the addresses it has revealed and its descriptors are kept -/
theorem C65_nothing_forgotten (gap par fuel n time : Nat) (so : SpendOrder) (f : Flags) (t' r)
    (hr : esploraScan s o o' t gap par fuel n time = .ok (t', r) ∨ esploraSync s o o' so t f par fuel n time = .ok (t', r)) :
    (∀ x y, t.chainGraph.graph.getTx x = some y → t'.chainGraph.graph.getTx x = some y) ∧
    (∀ k, numRevealed t.txoutIndex k ≤ numRevealed t'.txoutIndex k) ∧ t'.txoutIndex.keychains = t.txoutIndex.keychains := by
  have key : (∀ e, r = .error e → t' = t) → (∀ cs, r = .ok cs → ∃ u, Taken t u t') →
      (∀ x y, t.chainGraph.graph.getTx x = some y → t'.chainGraph.graph.getTx x = some y) ∧
      (∀ k, numRevealed t.txoutIndex k ≤ numRevealed t'.txoutIndex k) ∧ t'.txoutIndex.keychains = t.txoutIndex.keychains := by
    intro h1 h2
    cases r with
    | error e => rw [h1 e rfl]; exact ⟨fun _ _ h => h, fun _ => le_refl _, rfl⟩
    | ok cs => obtain ⟨u, h3⟩ := h2 cs rfl; exact ⟨h3.graph, h3.revealed, h3.keychains⟩
  rcases hr with hr | hr
  · obtain ⟨-, h1, h2⟩ := (scan_any h s o o' gap par fuel n time hsm).2 _ _ hr
    exact key h1 fun cs hcs => ⟨_, (h2 cs hcs).choose_spec.1⟩
  · obtain ⟨-, h1, h2⟩ := (sync_any h s o o' so f par fuel n time hsm).2 _ _ hr
    exact key h1 fun cs hcs => ⟨_, (h2 cs hcs).choose_spec.1⟩

end

/-! ## one command of the electrum example -/

section
variable {K D T : Type} [LinearOrder K] [DescriptorOps D] [DecidableEq D] [LinearOrder T] [AsTransaction T] [LawfulTx T]
variable {t : Tracker K D TxHeight T} (h : Healthy t) (s : Electrum.Server) (get : Txid → Option T) (ho : Electrum.Order)
  (so so' : SpendOrder) (o : Orders TxHeight T) (hsm : ∀ τ b, s.tip τ = some b → b.height < u32Max)
  (hout : ∀ τ x tx, s.tx τ x = .ok tx → tx.output ≠ [])
include h hsm hout

/-- **C65** no server makes `Scan` or `Sync` panic -/
theorem C65_electrum_never_panics (gap bs n time : Nat) (f : Flags) :
    electrumScan s get ho so o t gap bs n time ≠ .panic ∧ electrumSync s get ho so so' o t f bs n time ≠ .panic :=
  ⟨(escan_any h s get ho so o gap bs n time hsm hout).1, (esync_any h s get ho so so' o f bs n time hsm hout).1⟩

/-- **C65** a refused update changes nothing -/
theorem C65_electrum_refused_changes_nothing (gap bs n time : Nat) (f : Flags) (t' e) :
    (electrumScan s get ho so o t gap bs n time = .ok (t', .error e) → t' = t) ∧
    (electrumSync s get ho so so' o t f bs n time = .ok (t', .error e) → t' = t) :=
  ⟨fun hr => ((escan_any h s get ho so o gap bs n time hsm hout).2 _ _ hr).2.1 e rfl,
   fun hr => ((esync_any h s get ho so so' o f bs n time hsm hout).2 _ _ hr).2.1 e rfl⟩

/-- **C65** after `Scan` or `Sync` the wallet is in working order -/
theorem C65_electrum_stays_healthy (gap bs n time : Nat) (f : Flags) (t' r) :
    (electrumScan s get ho so o t gap bs n time = .ok (t', r) → Healthy t') ∧
    (electrumSync s get ho so so' o t f bs n time = .ok (t', r) → Healthy t') :=
  ⟨fun hr => ((escan_any h s get ho so o gap bs n time hsm hout).2 _ _ hr).1,
   fun hr => ((esync_any h s get ho so so' o f bs n time hsm hout).2 _ _ hr).1⟩

omit hsm hout in
omit h [LawfulTx T] in
theorem eorigin_of {u t' : _} (ht : Taken t u t') (hrep : ∀ y p, u.chain.txPosition y = some p → EReported s y p) {x p}
    (hp : t'.chainGraph.chain.txPosition x = some p) :
    EReported s x p ∨ t.chainGraph.chain.txPosition x = some p ∨
    (p = .unconfirmed ∧ ∃ k f b, t.chainGraph.chain.txPosition x = some (.confirmed k) ∧ f ≤ k ∧
      t.chainGraph.chain.checkpointAt f = some b ∧ t'.chainGraph.chain.checkpointAt f ≠ some b) := by
  rcases ht.position x p hp with h1 | ⟨-, h1⟩ | ⟨-, h1, q, k, f, b, h2, h3, h4, h5, h6⟩
  · exact .inl (hrep x p h1)
  · exact .inr (.inl h1)
  · refine .inr (.inr ⟨h1, ?_⟩)
    cases q with
    | unconfirmed => cases h3
    | confirmed k' =>
      cases h3
      exact ⟨_, f, b, h2, h4, h5, h6⟩

/-- **C65** nothing gets into the wallet that the server has not reported: every position after an accepted `Scan` or `Sync` was reported
by the server, or is the old one, or is `Unconfirmed` in place of a confirmation at or above a block that has left the wallet -/
theorem C65_electrum_only_reported (gap bs n time : Nat) (f : Flags) (t' cs)
    (hr : electrumScan s get ho so o t gap bs n time = .ok (t', .ok cs) ∨ electrumSync s get ho so so' o t f bs n time = .ok (t', .ok cs))
    (x : Txid) (p : TxHeight) (hp : t'.chainGraph.chain.txPosition x = some p) :
    EReported s x p ∨ t.chainGraph.chain.txPosition x = some p ∨
    (p = .unconfirmed ∧ ∃ k f b, t.chainGraph.chain.txPosition x = some (.confirmed k) ∧ f ≤ k ∧
      t.chainGraph.chain.checkpointAt f = some b ∧ t'.chainGraph.chain.checkpointAt f ≠ some b) := by
  rcases hr with hr | hr
  · obtain ⟨u, h1, h2, -⟩ := ((escan_any h s get ho so o gap bs n time hsm hout).2 _ _ hr).2.2 cs rfl
    exact eorigin_of s h1 h2 hp
  · obtain ⟨u, h1, h2, -⟩ := ((esync_any h s get ho so so' o f bs n time hsm hout).2 _ _ hr).2.2 cs rfl
    exact eorigin_of s h1 h2 hp

/-- **C65** no server makes the wallet forget: the transactions it has seen, the addresses it has revealed and its descriptors are kept -/
theorem C65_electrum_nothing_forgotten (gap bs n time : Nat) (f : Flags) (t' r)
    (hr : electrumScan s get ho so o t gap bs n time = .ok (t', r) ∨ electrumSync s get ho so so' o t f bs n time = .ok (t', r)) :
    (∀ x y, t.chainGraph.graph.getTx x = some y → t'.chainGraph.graph.getTx x = some y) ∧
    (∀ k, numRevealed t.txoutIndex k ≤ numRevealed t'.txoutIndex k) ∧ t'.txoutIndex.keychains = t.txoutIndex.keychains := by
  have key : (∀ e, r = .error e → t' = t) → (∀ cs, r = .ok cs → ∃ u, Taken t u t') →
      (∀ x y, t.chainGraph.graph.getTx x = some y → t'.chainGraph.graph.getTx x = some y) ∧
      (∀ k, numRevealed t.txoutIndex k ≤ numRevealed t'.txoutIndex k) ∧ t'.txoutIndex.keychains = t.txoutIndex.keychains := by
    intro h1 h2
    cases r with
    | error e => rw [h1 e rfl]; exact ⟨fun _ _ h => h, fun _ => le_refl _, rfl⟩
    | ok cs => obtain ⟨u, h3⟩ := h2 cs rfl; exact ⟨h3.graph, h3.revealed, h3.keychains⟩
  rcases hr with hr | hr
  · obtain ⟨-, h1, h2⟩ := (escan_any h s get ho so o gap bs n time hsm hout).2 _ _ hr
    exact key h1 fun cs hcs => ⟨_, (h2 cs hcs).choose_spec.1⟩
  · obtain ⟨-, h1, h2⟩ := (esync_any h s get ho so so' o f bs n time hsm hout).2 _ _ hr
    exact key h1 fun cs hcs => ⟨_, (h2 cs hcs).choose_spec.1⟩

end

/-! ## whole lives -/

section
variable {K D T : Type} [LinearOrder K] [DescriptorOps D] [DecidableEq D] [LinearOrder T] [AsTransaction T] [LawfulTx T]

/-- **C65** a wallet that was in working order once is in working order after any sequence of its owner's calls and of `Scan`s and
`Sync`s with any servers, and has forgotten nothing -/
theorem C65_life_any {t0 t : Tracker K D ConfirmationTime T} (h : Healthy t0) (hl : AnyLife t0 t) :
    Healthy t ∧ (∀ x y, t0.chainGraph.graph.getTx x = some y → t.chainGraph.graph.getTx x = some y) ∧
    (∀ k, numRevealed t0.txoutIndex k ≤ numRevealed t.txoutIndex k) ∧ t.txoutIndex.keychains = t0.txoutIndex.keychains := by
  induction hl with
  | new => exact ⟨h, fun _ _ h => h, fun _ => le_refl _, rfl⟩
  | owner op r _ hloc hr ih =>
    obtain ⟨h1, h2, h3, h4⟩ := ih
    obtain ⟨g2, g3, g4⟩ := local_keeps h1 hloc hr
    exact ⟨h1.local hloc hr, fun x y hx => g2 x y (h2 x y hx), fun k => le_trans (h3 k) (g3 k), g4.trans h4⟩
  | scan s o o' gap par fuel n time t' r _ hsm hr ih =>
    obtain ⟨h1, h2, h3, h4⟩ := ih
    obtain ⟨g2, g3, g4⟩ := C65_nothing_forgotten h1 s o o' hsm gap par fuel n time (fun _ => HashOrder.id _) ⟨false, false, false, false⟩ t' r (.inl hr)
    exact ⟨((scan_any h1 s o o' gap par fuel n time hsm).2 _ _ hr).1, fun x y hx => g2 x y (h2 x y hx), fun k => le_trans (h3 k) (g3 k), g4.trans h4⟩
  | sync s o o' so f par fuel n time t' r _ hsm hr ih =>
    obtain ⟨h1, h2, h3, h4⟩ := ih
    obtain ⟨g2, g3, g4⟩ := C65_nothing_forgotten h1 s o o' hsm 0 par fuel n time so f t' r (.inr hr)
    exact ⟨((sync_any h1 s o o' so f par fuel n time hsm).2 _ _ hr).1, fun x y hx => g2 x y (h2 x y hx), fun k => le_trans (h3 k) (g3 k), g4.trans h4⟩

/-- **C65** the same for the electrum example -/
theorem C65_electrum_life_any {t0 t : Tracker K D TxHeight T} (h : Healthy t0) (hl : AnyELife t0 t) :
    Healthy t ∧ (∀ x y, t0.chainGraph.graph.getTx x = some y → t.chainGraph.graph.getTx x = some y) ∧
    (∀ k, numRevealed t0.txoutIndex k ≤ numRevealed t.txoutIndex k) ∧ t.txoutIndex.keychains = t0.txoutIndex.keychains := by
  induction hl with
  | new => exact ⟨h, fun _ _ h => h, fun _ => le_refl _, rfl⟩
  | owner op r _ hloc hr ih =>
    obtain ⟨h1, h2, h3, h4⟩ := ih
    obtain ⟨g2, g3, g4⟩ := local_keeps h1 hloc hr
    exact ⟨h1.local hloc hr, fun x y hx => g2 x y (h2 x y hx), fun k => le_trans (h3 k) (g3 k), g4.trans h4⟩
  | scan s get ho so o gap bs n time t' r _ hsm hout hr ih =>
    obtain ⟨h1, h2, h3, h4⟩ := ih
    obtain ⟨g2, g3, g4⟩ := C65_electrum_nothing_forgotten h1 s get ho so so o hsm hout gap bs n time ⟨false, false, false, false⟩ t' r (.inl hr)
    exact ⟨((escan_any h1 s get ho so o gap bs n time hsm hout).2 _ _ hr).1, fun x y hx => g2 x y (h2 x y hx), fun k => le_trans (h3 k) (g3 k), g4.trans h4⟩
  | sync s get ho so so' o f bs n time t' r _ hsm hout hr ih =>
    obtain ⟨h1, h2, h3, h4⟩ := ih
    obtain ⟨g2, g3, g4⟩ := C65_electrum_nothing_forgotten h1 s get ho so so' o hsm hout 0 bs n time f t' r (.inr hr)
    exact ⟨((esync_any h1 s get ho so so' o f bs n time hsm hout).2 _ _ hr).1, fun x y hx => g2 x y (h2 x y hx), fun k => le_trans (h3 k) (g3 k), g4.trans h4⟩

/-! ## what a lying server can do -/

omit [DecidableEq D] [LinearOrder T] [AsTransaction T] [LawfulTx T] in
theorem last_of_latest {P : Type} [LinearOrder P] [ChainPosition P] {c : SparseChain P} {b : BlockId} (h : c.latestCheckpoint = some b) :
    c.checkpoints.last? = some (b.height, b.hash) := by
  unfold SparseChain.latestCheckpoint at h
  cases hl : c.checkpoints.last? with
  | none => rw [hl] at h; cases h
  | some e => rw [hl] at h; cases h; rfl

/-- **C65 finding** a wallet that believes in a block above the tip of an honest server is locked out by it: `Scan` and `Sync` fail,
whatever the flags and settings; nothing of what the server knows reaches the wallet -/
theorem C65_ahead_locked_out {t : Tracker K D ConfirmationTime T} (h : Healthy t) {s : Esplora.Server T} {w : Esplora.World T}
    (hs : s.Shows w) (hw : w.Sound) {b : BlockId} (hb : t.chainGraph.chain.latestCheckpoint = some b) (habove : w.tip.height < b.height)
    (o o' : Orders ConfirmationTime T) (so : SpendOrder) (f : Flags) (gap par fuel n time : Nat) :
    esploraScan s o o' t gap par fuel (n + 1) time = .error ∧ esploraSync s o o' so t f par fuel (n + 1) time = .error := by
  have hl := last_of_latest hb
  constructor
  · unfold esploraScan
    rw [Esplora.C62_behind_server_errors s w hs hw o _ _ _ hl habove]; rfl
  · obtain ⟨spks, hs1, -⟩ := syncSpks_spec h.reachable h.derivable f.resolve
    obtain ⟨txids, ht1, -⟩ := syncTxids_spec h.reachable f.resolve
    unfold esploraSync
    rw [hs1, ht1]
    simp only
    unfold Esplora.scanWithoutKeychain
    rw [Esplora.C62_behind_server_errors s w hs hw o _ _ _ hl habove]; rfl

omit [DecidableEq D] [LinearOrder T] [AsTransaction T] [LawfulTx T] in
theorem electrum_behind_errors {s : Electrum.Server} {w : Electrum.World} (hs : s.Shows w) (hw : w.Sound) (ho : Electrum.Order)
    (m : OMap Nat BlockHash) (h : Nat) (x : BlockHash) (hmax : m.last? = some (h, x)) (habove : w.tip.height < h)
    {K : Type} [LinearOrder K] (ks : OMap K (List (Nat × Script))) (txids : List Txid) (ops : List OutPoint) (gap bs n time : Nat) :
    Electrum.scan s ho m ks txids ops gap bs (n + 1) time = .error := by
  have hlast : m.entries.reverse.head? = some (h, x) := by
    rw [List.head?_reverse]; exact hmax
  obtain ⟨l, hl⟩ : ∃ l, m.entries.reverse = (h, x) :: l := by
    cases hr : m.entries.reverse with
    | nil => rw [hr] at hlast; cases hlast
    | cons a l => rw [hr] at hlast; simp at hlast; exact ⟨l, by rw [hlast]⟩
  have hno : w.header h = none := by
    cases hh : w.header h with
    | none => rfl
    | some y => have := (hw.headers h).1 ⟨y, hh⟩; omega
  simp only [Electrum.scan, Electrum.scanLoop, Electrum.scanRound, Electrum.prepareUpdate, hl, Electrum.prepareLoop, hs.2.1, hno]

/-- **C65 finding** the same with electrum -/
theorem C65_electrum_ahead_locked_out {t : Tracker K D TxHeight T} (h : Healthy t) {s : Electrum.Server} {w : Electrum.World}
    (hs : s.Shows w) (hw : w.Sound) {b : BlockId} (hb : t.chainGraph.chain.latestCheckpoint = some b) (habove : w.tip.height < b.height)
    (get : Txid → Option T) (ho : Electrum.Order) (so so' : SpendOrder) (o : Orders TxHeight T) (f : Flags) (gap bs n time : Nat) :
    electrumScan s get ho so o t gap bs (n + 1) time = .error ∧ electrumSync s get ho so so' o t f bs (n + 1) time = .error := by
  have hl := last_of_latest hb
  constructor
  · unfold electrumScan
    rw [electrum_behind_errors hs hw ho _ _ _ hl habove]; rfl
  · obtain ⟨spks, hs1, -⟩ := syncSpks_spec h.reachable h.derivable f.resolve
    obtain ⟨txids, ht1, -⟩ := syncTxids_spec h.reachable f.resolve
    unfold electrumSync
    rw [hs1, ht1]
    simp only
    unfold Electrum.scanWithoutKeychain
    rw [electrum_behind_errors hs hw ho _ _ _ hl habove]; rfl

end

/-! ## concrete wallets -/

theorem fresh_healthy : Healthy fresh :=
  ⟨fresh_reachable, demo_allDerivable _, demo_noCollision (by decide +kernel), by unfold Room; decide +kernel,
    ⟨(by rintro k ⟨b, hb⟩; cases hb), (by intro x p k hp; cases hp)⟩⟩

theorem freshE_healthy : Healthy freshE :=
  ⟨freshE_reachable, demo_allDerivable _, demo_noCollision (by decide +kernel), by unfold Room; decide +kernel,
    ⟨(by rintro k ⟨b, hb⟩; cases hb), (by intro x p k hp; cases hp)⟩⟩

theorem serverOf_small {w : Esplora.World DemoTx} (hw : w.tip.height < u32Max) :
    ∀ τ h, (Esplora.serverOf fun _ => w).height τ = some h → h < u32Max := by
  intro τ h hh
  cases hh
  exact hw

theorem eserver_small {w : Esplora.World DemoTx} (hw : w.tip.height < u32Max) : ∀ τ b, (eserver w).tip τ = some b → b.height < u32Max := by
  intro τ b hb
  unfold eserver Electrum.twoWorlds at hb
  simp only [ite_self, Option.some.injEq] at hb
  subst hb
  exact hw

/-- the block 1000000 is a lie, and so is transaction 2, a double spend of transaction 1 -/
def exLie : Esplora.World DemoTx := worldOf [(0, some (2, 5)), (2, some (4, 7))] 1000000 exHash
/-- a smaller lie: the blocks are right -/
def exLie2 : Esplora.World DemoTx := worldOf [(0, some (2, 5)), (2, some (4, 7))] 6 exHash
/-- the truth -/
def exHonest : Esplora.World DemoTx := worldOf [(0, some (2, 5))] 6 exHash
def exHonest2 : Esplora.World DemoTx := worldOf [(0, some (2, 5)), (1, some (5, 7))] 8 exHash

theorem anyLife_sync {t0 t t' : DemoWallet} (hl : AnyLife t0 t) {w : Esplora.World DemoTx} (hw : w.tip.height < u32Max)
    (h : runSync w t plain = some t') : AnyLife t0 t' := by
  obtain ⟨cs, hcs⟩ := runSync_ok h
  exact .sync _ _ _ _ _ _ _ _ _ _ _ hl (serverOf_small hw) hcs

theorem anyELife_sync {t0 t t' : DemoTracker} (hl : AnyELife t0 t) {l : List (Fin 8 × Esplora.Place)} {tip : Nat} {hash : Nat → BlockHash}
    (hw : tip < u32Max) (h : runESync (worldOf l tip hash) t plain = some t') : AnyELife t0 t' := by
  obtain ⟨cs, hcs⟩ := runESync_ok h
  refine .sync _ _ _ _ _ _ _ _ _ _ _ _ hl (eserver_small hw) ?_ hcs
  intro τ x tx htx
  unfold eserver Electrum.twoWorlds at htx
  simp only [ite_self] at htx
  cases hx : (eworldOf (worldOf l tip hash)).tx x with
  | none => rw [hx] at htx; cases htx
  | some y =>
    rw [hx] at htx
    cases htx
    obtain ⟨e, he, rfl⟩ := Option.map_eq_some_iff.1 hx
    obtain ⟨e', he', rfl⟩ := Option.map_eq_some_iff.1 he
    have key : ∀ n : Fin 8, (demoTx n).output ≠ [] := by decide
    exact key e'.1

/-- **C65 finding** one `Sync` with a server that lies about the height of its tip is enough: from then on, every `Scan` and `Sync` of
the wallet with an honest server fails, until the best chain is a million blocks long -/
theorem C65_one_lie_locks_out : ∃ t : DemoWallet, AnyLife fresh t ∧ Healthy t ∧
    ∀ (s : Esplora.Server DemoTx) (w : Esplora.World DemoTx), s.Shows w → w.Sound → w.tip.height < 1000000 →
      ∀ o o' so f gap par fuel n time, esploraScan s o o' t gap par fuel (n + 1) time = .error ∧
        esploraSync s o o' so t f par fuel (n + 1) time = .error := by
  have hrun : (runSync exLie fresh plain).isSome = true := by decide +kernel
  obtain ⟨t, ht⟩ := Option.isSome_iff_exists.1 hrun
  have hl := anyLife_sync (.new (t0 := fresh)) (w := exLie) (by decide) ht
  have hh := (C65_life_any fresh_healthy hl).1
  have hb : ∀ t ∈ runSync exLie fresh plain, t.chainGraph.chain.latestCheckpoint = some ⟨1000000, 1000100⟩ := by decide +kernel
  exact ⟨t, hl, hh, fun s w hs hw habove o o' so f gap par fuel n time =>
    C65_ahead_locked_out hh hs hw (hb t ht) habove o o' so f gap par fuel n time⟩

theorem C65_electrum_one_lie_locks_out : ∃ t : DemoTracker, AnyELife freshE t ∧ Healthy t ∧
    ∀ (s : Electrum.Server) (w : Electrum.World), s.Shows w → w.Sound → w.tip.height < 1000000 →
      ∀ get ho so so' o f gap bs n time, electrumScan s get ho so o t gap bs (n + 1) time = .error ∧
        electrumSync s get ho so so' o t f bs (n + 1) time = .error := by
  have hrun : (runESync exLie freshE plain).isSome = true := by decide +kernel
  obtain ⟨t, ht⟩ := Option.isSome_iff_exists.1 hrun
  have hl := anyELife_sync (.new (t0 := freshE)) (by decide) ht
  have hh := (C65_electrum_life_any freshE_healthy hl).1
  have hb : ∀ t ∈ runESync exLie freshE plain, t.chainGraph.chain.latestCheckpoint = some ⟨1000000, 1000100⟩ := by decide +kernel
  exact ⟨t, hl, hh, fun s w hs hw habove get ho so so' o f gap bs n time =>
    C65_electrum_ahead_locked_out hh hs hw (hb t ht) habove get ho so so' o f gap bs n time⟩

/-- **C65 finding** a lie about a transaction, told once, stays: a server claims that transaction 2 is confirmed in a block that is
really there.  `Sync` with an honest server that does not know the transaction succeeds, and the wallet still has it as confirmed and
shows its output as money; and if the honest chain has a transaction that spends the same coin, `Sync` is refused. -/
theorem C65_a_lie_stays : ∃ t t' : DemoWallet, AnyLife fresh t ∧ Healthy t ∧
    exHonest.Sound ∧ exHonest2.Sound ∧ exHonest.find (dId 2) = none ∧ exHonest2.find (dId 2) = none ∧
    (∃ cs, esploraSync (Esplora.serverOf fun _ => exHonest) oC oC soId t plain 2 50 1 0 = .ok (t', .ok cs)) ∧
    t'.chainGraph.chain.txPosition (dId 2) = some (.confirmed 4 7) ∧
    (∃ e ∈ t'.fullUtxos soId, e.1 = (0, 1) ∧ e.2.outpoint = ⟨dId 2, 0⟩) ∧
    ∃ e, esploraSync (Esplora.serverOf fun _ => exHonest2) oC oC soId t' plain 2 50 1 0 = .ok (t', .error e) := by
  have hrun : ((runSync exLie2 fresh plain).bind fun t => runSync exHonest t plain).isSome = true := by decide +kernel
  obtain ⟨t', ht'⟩ := Option.isSome_iff_exists.1 hrun
  obtain ⟨t, ht, htt⟩ := Option.bind_eq_some_iff.1 ht'
  have hl := anyLife_sync (.new (t0 := fresh)) (w := exLie2) (by decide) ht
  have hl' := anyLife_sync hl (w := exHonest) (by decide) htt
  have hh := (C65_life_any fresh_healthy hl).1
  have hh' := (C65_life_any fresh_healthy hl').1
  have h1 : ∀ t' ∈ (runSync exLie2 fresh plain).bind (fun t => runSync exHonest t plain),
      t'.chainGraph.chain.txPosition (dId 2) = some (.confirmed 4 7) ∧
      (∃ e ∈ t'.fullUtxos soId, e.1 = (0, 1) ∧ e.2.outpoint = ⟨dId 2, 0⟩) := by decide +kernel
  have h2 : ∀ t' ∈ (runSync exLie2 fresh plain).bind (fun t => runSync exHonest t plain),
      (match esploraSync (Esplora.serverOf fun _ => exHonest2) oC oC soId t' plain 2 50 1 0 with
        | .ok (_, .error _) => true
        | _ => false) = true := by decide +kernel
  refine ⟨t, t', hl, hh, sound_worldOf (by decide), sound_worldOf (by decide), rfl, rfl, runSync_ok htt, (h1 t' ht').1, (h1 t' ht').2, ?_⟩
  have h3 := h2 t' ht'
  rcases hq : esploraSync (Esplora.serverOf fun _ => exHonest2) oC oC soId t' plain 2 50 1 0 with ⟨t1, e | cs⟩ | _ | _ | _
  · have := (C65_refused_changes_nothing hh' _ oC oC (serverOf_small (w := exHonest2) (by decide)) 0 2 50 1 0 soId plain t1 e).2 hq
    subst this
    exact ⟨e, rfl⟩
  all_goals (rw [hq] at h3; cases h3)

/-- the hypotheses of the theorems about one command and about lives are met by a wallet with a past and a server that makes up another
past: transaction 1, confirmed before, becomes unconfirmed -/
example : ∃ t t' : DemoWallet, AnyLife fresh t ∧ Healthy t ∧ t.chainGraph.chain.txPosition (dId 1) = some (.confirmed 4 7) ∧
    (∀ τ h, (Esplora.serverOf fun _ => worldOf [(0, some (2, 5))] 7 exHash2).height τ = some h → h < u32Max) ∧
    (∃ cs, esploraSync (Esplora.serverOf fun _ => worldOf [(0, some (2, 5))] 7 exHash2) oC oC soId t plain 2 50 1 0 = .ok (t', .ok cs)) ∧
    t'.chainGraph.chain.txPosition (dId 1) = some .unconfirmed := by
  have hrun : ((runSync exW0 fresh plain).bind fun t => runSync (worldOf [(0, some (2, 5))] 7 exHash2) t plain).isSome = true := by decide +kernel
  obtain ⟨t', ht'⟩ := Option.isSome_iff_exists.1 hrun
  obtain ⟨t, ht, htt⟩ := Option.bind_eq_some_iff.1 ht'
  have hl := anyLife_sync (.new (t0 := fresh)) (w := exW0) (by decide) ht
  have h1 : ∀ t ∈ runSync exW0 fresh plain, t.chainGraph.chain.txPosition (dId 1) = some (.confirmed 4 7) := by decide +kernel
  have h2 : ∀ t' ∈ (runSync exW0 fresh plain).bind (fun t => runSync (worldOf [(0, some (2, 5))] 7 exHash2) t plain),
      t'.chainGraph.chain.txPosition (dId 1) = some .unconfirmed := by decide +kernel
  exact ⟨t, t', hl, (C65_life_any fresh_healthy hl).1, h1 t ht, serverOf_small (by decide), runSync_ok htt, h2 t' ht'⟩

/-- the same with electrum; a wallet in the middle of its life -/
example : ∃ t t' : DemoTracker, AnyELife freshE t ∧ Healthy t ∧ t.chainGraph.chain.txPosition (dId 1) = some (.confirmed 4) ∧
    AnyELife freshE t' ∧ t'.chainGraph.chain.txPosition (dId 1) = some (.confirmed 6) := by
  have hrun : ((runESync exW0 freshE plain).bind fun t => runESync (worldOf [(0, some (2, 5)), (1, some (6, 7))] 7 exHash2) t plain).isSome = true := by
    decide +kernel
  obtain ⟨t', ht'⟩ := Option.isSome_iff_exists.1 hrun
  obtain ⟨t, ht, htt⟩ := Option.bind_eq_some_iff.1 ht'
  have hl := anyELife_sync (.new (t0 := freshE)) (by decide) ht
  have hl' := anyELife_sync hl (by decide) htt
  have h1 : ∀ t ∈ runESync exW0 freshE plain, t.chainGraph.chain.txPosition (dId 1) = some (.confirmed 4) := by decide +kernel
  have h2 : ∀ t' ∈ (runESync exW0 freshE plain).bind (fun t => runESync (worldOf [(0, some (2, 5)), (1, some (6, 7))] 7 exHash2) t plain),
      t'.chainGraph.chain.txPosition (dId 1) = some (.confirmed 6) := by decide +kernel
  exact ⟨t, t', hl, (C65_electrum_life_any freshE_healthy hl).1, h1 t ht, hl', h2 t' ht'⟩

end Verif.Sync
