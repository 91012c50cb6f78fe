import Verif.Lemmas.Sync8
import Verif.Props.SyncDemo

/-!
# C63: the `Scan` and `Sync` commands of the esplora example wallet, with an honest server
-/

namespace Verif.Sync
open Verif Spec Props SparseChain ChainGraph
variable {K D T : Type} [LinearOrder K] [DescriptorOps D] [DecidableEq D] [LinearOrder T] [AsTransaction T] [LawfulTx T]

/-! ## what is asked for -/

/-- **C63** the flags of `Sync`: without any flag, unused scripts, unspent outputs and unconfirmed transactions are asked for; all
scripts include the unused ones; otherwise what is asked for is what was given -/
theorem C63_flags (f : Flags) :
    ((f.allSpks = false ∧ f.unusedSpks = false ∧ f.utxos = false ∧ f.unconfirmed = false) →
      f.resolve = ⟨true, true, true, false⟩) ∧
    (f.allSpks = true → f.resolve = ⟨false, f.utxos, f.unconfirmed, true⟩) ∧
    (f.allSpks = false → (f.unusedSpks || f.utxos || f.unconfirmed) = true → f.resolve = f) := by
  obtain ⟨a, b, c, d⟩ := f
  cases a <;> cases b <;> cases c <;> cases d <;> decide

/-- **C63** what `Sync` asks for: it does not panic; the scripts are those stored (all, or the unused ones), the outpoints those of the
unspent outputs the wallet shows, the transactions those the wallet has as unconfirmed -/
theorem C63_sync_request {P : Type} [LinearOrder P] [ChainPosition P] [LawfulChainPosition P] (t : Tracker K D P T) (hr : t.Reachable)
    (hd : AllDerivable t.txoutIndex) (f : Flags) (so : SpendOrder) :
    (∃ l, syncSpks t f = some l ∧ ∀ spk, spk ∈ l ↔ ∃ k i, SyncAsked t f k i spk) ∧
    (∃ l, syncTxids t f = some l ∧ ∀ x, x ∈ l ↔ f.unconfirmed = true ∧ IsUnconfirmed t.chainGraph.chain x) ∧
    ∀ op, op ∈ syncOutpoints t so f ↔ f.utxos = true ∧ ∃ e ∈ t.fullUtxos so, e.2.outpoint = op := by
  refine ⟨syncSpks_spec hr hd f, syncTxids_spec hr f, fun op => ?_⟩
  unfold syncOutpoints
  by_cases hu : f.utxos = true
  · rw [if_pos hu, List.mem_map]; simp [hu]
  · rw [if_neg hu]; simp [hu]

/-- **C63** what `Scan` asks for: of each keychain the scripts the descriptor has, from index 0 to its highest, in order -/
theorem C63_scan_request (s : KeychainIndex K D) (hd : AllDerivable s) (k : K) :
    (s.keychains.get k = none → (spksOfAllKeychains s).get k = none) ∧
    ∀ d, s.keychains.get k = some d → ∃ l, (spksOfAllKeychains s).get k = some l ∧ l.length = cap d + 1 ∧
      ∀ (n i : Nat) (spk : Script), l[n]? = some (i, spk) ↔ i = n ∧ n ≤ cap d ∧ spkAt d n = some spk := by
  constructor
  · intro h; unfold spksOfAllKeychains; rw [OMap.get_mapVal, h]; rfl
  · intro d hk
    cases hl : (spksOfAllKeychains s).get k with
    | none =>
      unfold spksOfAllKeychains at hl
      rw [OMap.get_mapVal, hk] at hl; cases hl
    | some l =>
      obtain ⟨d', h1, h2, h3⟩ := spksOfAll_get hd hl
      rw [hk] at h1
      cases h1
      exact ⟨l, rfl, h2, h3⟩

/-! ## `Scan` -/

section
variable {t : Tracker K D ConfirmationTime T} {s : Esplora.Server T} {w : Esplora.World T} (hs : s.Shows w) (hw : w.Sound)
  (hx : Indexed w) (h : Ready t (viewOf w)) (o o' : Orders ConfirmationTime T) (gap par fuel n time : Nat)
  (hf : ∀ spk, (w.confirmed spk).length ≤ fuel)
include hs hw hx h hf

/-- **C63** `Scan` succeeds: no panic, the update is accepted.  Afterwards the wallet's tip is the server's (unless it is told to
keep no block), all its blocks are of the best chain, every transaction it has as confirmed is confirmed in the best chain, at that
position, and it is ready for the next command -/
theorem C63_scan_succeeds : ∃ t' cs, esploraScan s o o' t gap par fuel (n + 1) time = .ok (t', .ok cs) ∧
    Ready t' (viewOf w) ∧
    (t.chainGraph.chain.checkpointLimit ≠ some 0 → t'.chainGraph.chain.latestCheckpoint = some w.tip) ∧
    (∀ k b, t'.chainGraph.chain.checkpointAt k = some b → w.header k = some b.hash) ∧
    ∀ x p k, t'.chainGraph.chain.txPosition x = some p → ChainPosition.height p = .confirmed k →
      ∃ y pl, w.find x = some (y, pl) ∧ p = Esplora.positionOf pl := by
  obtain ⟨t', cs, la, h1, h2, -⟩ := scan_after hs hw hx h o o' gap par fuel n time hf
  refine ⟨t', cs, h1, h2.ready, h2.tip, h2.headers, fun x p k hp hk => ?_⟩
  obtain ⟨y, hy⟩ := h2.confirmed x p k hp hk
  obtain ⟨e, he, h3⟩ := viewOf_find.1 hy
  cases h3
  exact ⟨e.1, e.2, he, rfl⟩

variable {t' : Tracker K D ConfirmationTime T} {cs : KeychainChangeSet K ConfirmationTime T}
  (hok : esploraScan s o o' t gap par fuel (n + 1) time = .ok (t', .ok cs))
include hok

/-- **C63** after `Scan` every transaction of a script that was asked for is in the wallet, in full and at the server's position, and
the script is revealed -/
theorem C63_scan_finds {k : K} {i : Nat} {spk : Script} (ha : Asked t w gap (max par 1) k i spk) {e : T × Esplora.Place}
    (he : e ∈ w.history spk) :
    t'.chainGraph.chain.txPosition (asTx e.1).txid = some (Esplora.positionOf e.2) ∧
    (∃ y, t'.chainGraph.graph.getTx (asTx e.1).txid = some y ∧ asTx y = asTx e.1) ∧ i < numRevealed t'.txoutIndex k := by
  obtain ⟨t1, cs1, la, h1, h2, h3⟩ := scan_after hs hw hx h o o' gap par fuel n time hf
  rw [hok] at h1
  cases h1
  obtain ⟨h4, h5⟩ := h2.found _ _ (viewOf_find.2 ⟨e, hw.listed spk e he, rfl⟩) ⟨k, i, spk, e, ha, he, rfl⟩
  refine ⟨h4, h5, ?_⟩
  obtain ⟨l, hl, hr, hg⟩ := ha
  obtain ⟨j, hj, hij⟩ := lastActive_ge w h.derivable hl hr hg (List.ne_nil_of_mem he)
  exact lt_of_le_of_lt hij (h2.lastActive k j ((h3 k j).2 ⟨l, hl, hj⟩))

/-- **C63** after `Scan` an output that exists in the world and pays a script that was asked for is shown as unspent iff nothing in
the world spends it and no transaction of the wallet that is unknown to the server spends it; it is shown as what it is and at its
position.  (The transaction must be new to the wallet, or the output already indexed: an output that was seen before its script
was stored is not found again, see `C63_scan_misses_late_output`.) -/
theorem C63_scan_shows_money (so : SpendOrder) {k : K} {i : Nat} {x : TxOut} (ha : Asked t w gap (max par 1) k i x.spk) {op : OutPoint}
    {p : ConfirmationTime} (hout : OutputIn (viewOf w).find op x p)
    (hnew : t.chainGraph.graph.getTx op.txid = none ∨ t.txoutIndex.inner.txout op = some (toLex (k, i), x)) :
    ((∃ f, ((k, i), f) ∈ t'.fullUtxos so ∧ f.outpoint = op) ↔
      (¬ ∃ y, SpentIn (viewOf w).find op y) ∧
      ¬ ∃ z y, InChain t'.chainGraph.chain z ∧ w.find z = none ∧ t'.chainGraph.graph.getTx z = some y ∧ op ∈ (asTx y).input ∧
        op.isNull = false) ∧
    ∀ k' i' f, ((k', i'), f) ∈ t'.fullUtxos so → f.outpoint = op → k' = k ∧ i' = i ∧ f.txout = x ∧ f.chainPosition = p := by
  obtain ⟨t1, cs1, la, h1, h2, h3⟩ := scan_after hs hw hx h o o' gap par fuel n time hf
  rw [hok] at h1
  cases h1
  have hhist := history_of_output hx hout hw
  obtain ⟨e, he, heq⟩ := hhist
  have hS : ∃ k i spk e, Asked t w gap (max par 1) k i spk ∧ e ∈ w.history spk ∧ (asTx e.1).txid = op.txid := ⟨k, i, _, e, ha, he, heq⟩
  have hsp : ∀ y, SpentIn (viewOf w).find op y → ∃ k i spk e, Asked t w gap (max par 1) k i spk ∧ e ∈ w.history spk ∧ (asTx e.1).txid = y := by
    intro y hy
    obtain ⟨e, he, heq⟩ := history_of_spender hw hx hout hy
    exact ⟨k, i, _, e, ha, he, heq⟩
  have hix : t'.txoutIndex.inner.txout op = some (toLex (k, i), x) := by
    apply h2.indexed op x p k i hout hS _ hnew
    right
    obtain ⟨l, hl, hr, hg⟩ := ha
    obtain ⟨j, hj, hij⟩ := lastActive_ge w h.derivable hl hr hg (List.ne_nil_of_mem he)
    obtain ⟨d, hd, -, h6⟩ := spksOfAll_get h.derivable hl
    obtain ⟨-, h7, h8⟩ := (h6 _ _ _).1 hg
    exact ⟨d, j, hd, h7, h8, (h3 k j).2 ⟨l, hl, hj⟩, hij⟩
  have := utxo_iff h2 (viewOf_sound hw hx) so hout hS hsp hix
  have hn : ∀ z, (viewOf w).find z = none ↔ w.find z = none := by
    intro z; unfold viewOf; simp
  simpa only [hn] using this

/-- **C63** after `Scan` no output that pays a script that was asked for is shown as unspent if it is spent in the world -/
theorem C63_scan_spent_not_shown (so : SpendOrder) {k : K} {i : Nat} {x : TxOut} (ha : Asked t w gap (max par 1) k i x.spk)
    {op : OutPoint} {p : ConfirmationTime} (hout : OutputIn (viewOf w).find op x p) {y : Txid} (hy : SpentIn (viewOf w).find op y) :
    ∀ e ∈ t'.fullUtxos so, e.2.outpoint ≠ op := by
  obtain ⟨t1, cs1, la, h1, h2, h3⟩ := scan_after hs hw hx h o o' gap par fuel n time hf
  rw [hok] at h1
  cases h1
  rintro ⟨⟨k', i'⟩, f⟩ hm rfl
  obtain ⟨-, -, -, hno⟩ := ((C39_full_utxos t' h2.ready.reachable so).1 k' i' f).1 hm
  obtain ⟨e, he, heq⟩ := history_of_spender hw hx hout hy
  obtain ⟨ey, hey, hin, hnn⟩ := hy
  obtain ⟨h4, ys, h5, h6⟩ := h2.found _ _ hey ⟨k, i, _, e, ha, he, heq⟩
  exact hno ⟨y, ys, by unfold InChain; rw [h4]; simp, h5, by rw [h6]; exact hin, hnn⟩

/-- **C63** a new wallet (or one restored from its descriptors alone): of the scripts that `Scan` asks for, it shows exactly the
outputs that exist and are unspent -/
theorem C63_scan_restores (hnew : (∀ y, t.chainGraph.graph.getTx y = none) ∧ ∀ y, ¬ InChain t.chainGraph.chain y) (so : SpendOrder) {k : K} {i : Nat} {x : TxOut}
    (ha : Asked t w gap (max par 1) k i x.spk) (op : OutPoint) (p : ConfirmationTime) (hout : OutputIn (viewOf w).find op x p) :
    (∃ f, ((k, i), f) ∈ t'.fullUtxos so ∧ f.outpoint = op ∧ f.txout = x ∧ f.chainPosition = p) ↔
      ¬ ∃ y, SpentIn (viewOf w).find op y := by
  obtain ⟨t1, cs1, la, h1, h2, h3⟩ := scan_after hs hw hx h o o' gap par fuel n time hf
  rw [hok] at h1
  cases h1
  obtain ⟨h4, h5⟩ := C63_scan_shows_money hs hw hx h o o' gap par fuel n time hf hok so ha hout (.inl (hnew.1 _))
  have hno : ¬ ∃ z y, InChain t'.chainGraph.chain z ∧ w.find z = none ∧ t'.chainGraph.graph.getTx z = some y ∧ op ∈ (asTx y).input ∧
        op.isNull = false := by
    rintro ⟨z, y, hz, hn, -⟩
    rcases h2.only z hz with ⟨-, e, he⟩ | h6
    · obtain ⟨e', he', -⟩ := viewOf_find.1 he
      rw [hn] at he'; cases he'
    · exact hnew.2 z h6
  constructor
  · rintro ⟨f, hm, ho, -⟩
    exact (h4.1 ⟨f, hm, ho⟩).1
  · intro h6
    obtain ⟨f, hm, ho⟩ := h4.2 ⟨h6, hno⟩
    obtain ⟨-, -, h7, h8⟩ := h5 k i f hm ho
    exact ⟨f, hm, ho, h7, h8⟩

/-- **C63** a transaction of the wallet that the server does not know (dropped from the mempool, or its block has left the best chain)
goes away exactly if it is overruled: `Scan` brought a transaction that conflicts with it or with an ancestor of it.  Otherwise it stays,
as unconfirmed -/
theorem C63_scan_unknown {x : Txid} (hun : w.find x = none)
    (hin : InChain t.chainGraph.chain x) :
    (InChain t'.chainGraph.chain x ↔ ¬ Overruled t t' x) ∧ (InChain t'.chainGraph.chain x → IsUnconfirmed t'.chainGraph.chain x ∧
      (IsUnconfirmed t.chainGraph.chain x → t'.chainGraph.chain.txPosition x = t.chainGraph.chain.txPosition x)) := by
  obtain ⟨t1, cs1, la, h1, h2, -⟩ := scan_after hs hw hx h o o' gap par fuel n time hf
  rw [hok] at h1
  cases h1
  exact h2.fate (by unfold viewOf; simp [hun]) hin

/-- **C63** money that the wallet shows and the server does not know (and nothing the server knows spends) is still shown after `Scan`, unless
its transaction is overruled -/
theorem C63_scan_unknown_money (so1 so2 : SpendOrder) {k : K} {i : Nat} {g : FullTxOut ConfirmationTime} (hg : ((k, i), g) ∈ t.fullUtxos so1)
    (hun : w.find g.outpoint.txid = none) (hns : ¬ ∃ y, SpentIn (viewOf w).find g.outpoint y) :
    (∃ g', ((k, i), g') ∈ t'.fullUtxos so2 ∧ g'.outpoint = g.outpoint ∧ g'.txout = g.txout) ↔ ¬ Overruled t t' g.outpoint.txid := by
  obtain ⟨t1, cs1, la, h1, h2, -⟩ := scan_after hs hw hx h o o' gap par fuel n time hf
  rw [hok] at h1
  cases h1
  exact h2.unknown_money h.reachable (viewOf_sound hw hx) so1 so2 hg (by unfold viewOf; simp [hun]) hns

/-- **C63** `Scan` adds nothing else: a new transaction is in the history of a script that was asked for -/
theorem C63_scan_adds_only {x : Txid} (hin : InChain t'.chainGraph.chain x) (hnew : ¬ InChain t.chainGraph.chain x) :
    (∃ k i spk e, Asked t w gap (max par 1) k i spk ∧ e ∈ w.history spk ∧ (asTx e.1).txid = x) ∧ ∃ e, w.find x = some e := by
  obtain ⟨t1, cs1, la, h1, h2, -⟩ := scan_after hs hw hx h o o' gap par fuel n time hf
  rw [hok] at h1
  cases h1
  rcases h2.only x hin with ⟨h3, e, he⟩ | h3
  · obtain ⟨e', he', -⟩ := viewOf_find.1 he
    exact ⟨h3, e', he'⟩
  · exact absurd h3 hnew

end

/-! ## `Sync` -/

section
variable {t : Tracker K D ConfirmationTime T} {s : Esplora.Server T} {w : Esplora.World T} (hs : s.Shows w) (hw : w.Sound)
  (hx : Indexed w) (h : Ready t (viewOf w)) (o o' : Orders ConfirmationTime T) (so : SpendOrder) (f : Flags) (par fuel n time : Nat)
  (hf : ∀ spk, (w.confirmed spk).length ≤ fuel) (hlen : ∀ l, syncSpks t f.resolve = some l → l.length ≤ u64Max)
include hs hw hx h hf hlen

/-- **C63** the same for `Sync`, whatever the flags -/
theorem C63_sync_succeeds : ∃ t' cs, esploraSync s o o' so t f par fuel (n + 1) time = .ok (t', .ok cs) ∧
    Ready t' (viewOf w) ∧
    (t.chainGraph.chain.checkpointLimit ≠ some 0 → t'.chainGraph.chain.latestCheckpoint = some w.tip) ∧
    (∀ k b, t'.chainGraph.chain.checkpointAt k = some b → w.header k = some b.hash) ∧
    ∀ x p k, t'.chainGraph.chain.txPosition x = some p → ChainPosition.height p = .confirmed k →
      ∃ y pl, w.find x = some (y, pl) ∧ p = Esplora.positionOf pl := by
  obtain ⟨t', cs, h1, h2⟩ := sync_after hs hw hx h o o' so f par fuel n time hf hlen
  refine ⟨t', cs, h1, h2.ready, h2.tip, h2.headers, fun x p k hp hk => ?_⟩
  obtain ⟨y, hy⟩ := h2.confirmed x p k hp hk
  obtain ⟨e, he, h3⟩ := viewOf_find.1 hy
  cases h3
  exact ⟨e.1, e.2, he, rfl⟩

variable {t' : Tracker K D ConfirmationTime T} {cs : KeychainChangeSet K ConfirmationTime T}
  (hok : esploraSync s o o' so t f par fuel (n + 1) time = .ok (t', .ok cs))
include hok

/-- **C63** after `Sync` (with or without flags, but for those that leave the unconfirmed ones out) every transaction that was
unconfirmed in the wallet and is known to the server is at the server's position -/
theorem C63_sync_unconfirmed (hu : f.resolve.unconfirmed = true) {x : Txid} (hun : IsUnconfirmed t.chainGraph.chain x)
    {e : T × Esplora.Place} (he : w.find x = some e) : t'.chainGraph.chain.txPosition x = some (Esplora.positionOf e.2) := by
  obtain ⟨t1, cs1, h1, h2⟩ := sync_after hs hw hx h o o' so f par fuel n time hf hlen
  rw [hok] at h1
  cases h1
  exact (h2.found _ _ (viewOf_find.2 ⟨e, he, rfl⟩) (.inr (.inl ⟨hu, hun, e, he⟩))).1

/-- **C63** after `Sync` an output that the wallet showed as unspent and that exists in the world is at the server's position, and is
still shown iff nothing in the world spends it and no transaction of the wallet that is unknown to the server spends it -/
theorem C63_sync_utxos (hu : f.resolve.utxos = true) {k : K} {i : Nat} {g : FullTxOut ConfirmationTime} (hg : ((k, i), g) ∈ t.fullUtxos so)
    {x : TxOut} {p : ConfirmationTime} (hout : OutputIn (viewOf w).find g.outpoint x p) (so' : SpendOrder) :
    ((∃ g', ((k, i), g') ∈ t'.fullUtxos so' ∧ g'.outpoint = g.outpoint) ↔
      (¬ ∃ y, SpentIn (viewOf w).find g.outpoint y) ∧
      ¬ ∃ z y, InChain t'.chainGraph.chain z ∧ w.find z = none ∧ t'.chainGraph.graph.getTx z = some y ∧
        g.outpoint ∈ (asTx y).input ∧ g.outpoint.isNull = false) ∧
    ∀ k' i' g', ((k', i'), g') ∈ t'.fullUtxos so' → g'.outpoint = g.outpoint → k' = k ∧ i' = i ∧ g'.txout = x ∧ g'.chainPosition = p := by
  obtain ⟨t1, cs1, h1, h2⟩ := sync_after hs hw hx h o o' so f par fuel n time hf hlen
  rw [hok] at h1
  cases h1
  obtain ⟨y, hy, -⟩ := id hout
  obtain ⟨e, he, -⟩ := viewOf_find.1 hy
  obtain ⟨⟨x0, hx0⟩, ⟨y0, hy0, -⟩, -⟩ := ((C39_full_utxos t h.reachable so).1 k i g).1 hg
  have hcg := (tracker_parts h.reachable).2
  have hin : t.chainGraph.graph.getTx g.outpoint.txid ≠ none := by
    cases hp : t.chainGraph.chain.txPosition g.outpoint.txid with
    | none => rw [(C24_get_tx_in_chain _ hcg _).1 hp] at hy0; cases hy0
    | some q =>
      obtain ⟨z, -, hz, -⟩ := (C24_get_tx_in_chain _ hcg _).2 q hp
      rw [hz]; simp
  have hix := h2.indexKept g.outpoint hin
  rw [hx0] at hix
  have := utxo_iff h2 (viewOf_sound hw hx) so' hout (.inr (.inr ⟨hu, _, hg, ⟨e, he⟩, .inl rfl⟩))
    (fun z hz => .inr (.inr ⟨hu, _, hg, ⟨e, he⟩, .inr hz⟩)) hix
  have hn : ∀ z, (viewOf w).find z = none ↔ w.find z = none := by
    intro z; unfold viewOf; simp
  simpa only [hn] using this

/-- **C63** after `Sync` an output of the world that pays a script that was asked for is shown as unspent iff nothing in the world
spends it and no transaction of the wallet that is unknown to the server spends it -/
theorem C63_sync_shows_money {k : K} {i : Nat} {x : TxOut} (ha : SyncAsked t f.resolve k i x.spk) {op : OutPoint}
    {p : ConfirmationTime} (hout : OutputIn (viewOf w).find op x p)
    (hnew : t.chainGraph.graph.getTx op.txid = none ∨ t.txoutIndex.inner.txout op = some (toLex (k, i), x)) (so' : SpendOrder) :
    ((∃ g, ((k, i), g) ∈ t'.fullUtxos so' ∧ g.outpoint = op) ↔
      (¬ ∃ y, SpentIn (viewOf w).find op y) ∧
      ¬ ∃ z y, InChain t'.chainGraph.chain z ∧ w.find z = none ∧ t'.chainGraph.graph.getTx z = some y ∧ op ∈ (asTx y).input ∧
        op.isNull = false) ∧
    ∀ k' i' g, ((k', i'), g) ∈ t'.fullUtxos so' → g.outpoint = op → k' = k ∧ i' = i ∧ g.txout = x ∧ g.chainPosition = p := by
  obtain ⟨t1, cs1, h1, h2⟩ := sync_after hs hw hx h o o' so f par fuel n time hf hlen
  rw [hok] at h1
  cases h1
  obtain ⟨e, he, heq⟩ := history_of_output hx hout hw
  have hix := h2.indexed op x p k i hout (.inl ⟨k, i, _, e, ha, he, heq⟩) (.inl ha.1) hnew
  have := utxo_iff h2 (viewOf_sound hw hx) so' hout (.inl ⟨k, i, _, e, ha, he, heq⟩) (fun y hy => by
    obtain ⟨e, he, heq⟩ := history_of_spender hw hx hout hy
    exact .inl ⟨k, i, _, e, ha, he, heq⟩) hix
  have hn : ∀ z, (viewOf w).find z = none ↔ w.find z = none := by
    intro z; unfold viewOf; simp
  simpa only [hn] using this

/-- **C63** once all blocks of the wallet are in the best chain, `Sync` settles everything: every transaction of the wallet that the
server knows is at the server's position -/
theorem C63_sync_settles (hy : Synced t (viewOf w)) (hu : f.resolve.unconfirmed = true) {x : Txid}
    (hin : InChain t'.chainGraph.chain x) {e : T × Esplora.Place} (he : w.find x = some e) :
    t'.chainGraph.chain.txPosition x = some (Esplora.positionOf e.2) := by
  obtain ⟨t1, cs1, h1, h2⟩ := sync_after hs hw hx h o o' so f par fuel n time hf hlen
  rw [hok] at h1
  cases h1
  have he' : (viewOf w).find x = some (e.1, Esplora.positionOf e.2) := viewOf_find.2 ⟨e, he, rfl⟩
  by_cases hS : (∃ k i spk e, SyncAsked t f.resolve k i spk ∧ e ∈ w.history spk ∧ (asTx e.1).txid = x) ∨
        (f.resolve.unconfirmed = true ∧ IsUnconfirmed t.chainGraph.chain x ∧ ∃ e, w.find x = some e) ∨
        (f.resolve.utxos = true ∧ ∃ e ∈ t.fullUtxos so, (∃ e', w.find e.2.outpoint.txid = some e') ∧
          (x = e.2.outpoint.txid ∨ SpentIn (viewOf w).find e.2.outpoint x))
  · exact (h2.found x _ he' hS).1
  · rcases h2.only x hin with ⟨h3, -⟩ | h3
    · exact absurd h3 hS
    · obtain ⟨p, hp⟩ := Option.ne_none_iff_exists'.1 h3
      cases hk : ChainPosition.height p with
      | unconfirmed => exact absurd (.inr (.inl ⟨hu, ⟨p, hp, hk⟩, e, he⟩)) hS
      | confirmed k =>
        obtain ⟨y, hy'⟩ := h.truthful x p k hp hk fun a b _ hb => hy.headers a b hb
        rw [he'] at hy'
        cases hy'
        exact h2.same hy.headers x _ _ he' hS hp

/-- **C63** a transaction of the wallet that the server does not know (dropped from the mempool, or its block has left the best chain)
goes away exactly if it is overruled: `Sync` brought a transaction that conflicts with it or with an ancestor of it.  Otherwise it stays,
as unconfirmed -/
theorem C63_sync_unknown {x : Txid} (hun : w.find x = none)
    (hin : InChain t.chainGraph.chain x) :
    (InChain t'.chainGraph.chain x ↔ ¬ Overruled t t' x) ∧ (InChain t'.chainGraph.chain x → IsUnconfirmed t'.chainGraph.chain x ∧
      (IsUnconfirmed t.chainGraph.chain x → t'.chainGraph.chain.txPosition x = t.chainGraph.chain.txPosition x)) := by
  obtain ⟨t1, cs1, h1, h2⟩ := sync_after hs hw hx h o o' so f par fuel n time hf hlen
  rw [hok] at h1
  cases h1
  exact h2.fate (by unfold viewOf; simp [hun]) hin

/-- **C63** money that the wallet shows and the server does not know (and nothing the server knows spends) is still shown after `Sync`, unless
its transaction is overruled -/
theorem C63_sync_unknown_money (so2 : SpendOrder) {k : K} {i : Nat} {g : FullTxOut ConfirmationTime} (hg : ((k, i), g) ∈ t.fullUtxos so)
    (hun : w.find g.outpoint.txid = none) (hns : ¬ ∃ y, SpentIn (viewOf w).find g.outpoint y) :
    (∃ g', ((k, i), g') ∈ t'.fullUtxos so2 ∧ g'.outpoint = g.outpoint ∧ g'.txout = g.txout) ↔ ¬ Overruled t t' g.outpoint.txid := by
  obtain ⟨t1, cs1, h1, h2⟩ := sync_after hs hw hx h o o' so f par fuel n time hf hlen
  rw [hok] at h1
  cases h1
  exact h2.unknown_money h.reachable (viewOf_sound hw hx) so so2 hg (by unfold viewOf; simp [hun]) hns

/-- **C63** `Sync` adds nothing else: a new transaction is in the history of a script that was asked for, or spends an output of the
wallet -/
theorem C63_sync_adds_only {x : Txid} (hin : InChain t'.chainGraph.chain x) (hnew : ¬ InChain t.chainGraph.chain x) :
    ((∃ k i spk e, SyncAsked t f.resolve k i spk ∧ e ∈ w.history spk ∧ (asTx e.1).txid = x) ∨
      (f.resolve.utxos = true ∧ ∃ e ∈ t.fullUtxos so, SpentIn (viewOf w).find e.2.outpoint x)) ∧ ∃ e, w.find x = some e := by
  obtain ⟨t1, cs1, h1, h2⟩ := sync_after hs hw hx h o o' so f par fuel n time hf hlen
  rw [hok] at h1
  cases h1
  rcases h2.only x hin with ⟨h3, e, he⟩ | h3
  · obtain ⟨e', he', -⟩ := viewOf_find.1 he
    refine ⟨?_, e', he'⟩
    rcases h3 with h4 | ⟨-, ⟨p, hp, -⟩, -⟩ | ⟨hu, e1, he1, -, rfl | h4⟩
    · exact .inl h4
    · exact absurd (by unfold InChain; rw [hp]; simp) hnew
    · exact absurd (utxo_inChain h.reachable he1) hnew
    · exact .inr ⟨hu, e1, he1, h4⟩
  · exact absurd h3 hnew

end

/-- **C63** two `Sync`s in a row settle everything: afterwards every transaction of the wallet that the server knows is at the server's
position -/
theorem C63_two_syncs {t : Tracker K D ConfirmationTime T} {s : Esplora.Server T} {w : Esplora.World T} (hs : s.Shows w) (hw : w.Sound)
    (hx : Indexed w) (h : Ready t (viewOf w)) (o1 o1' o2 o2' : Orders ConfirmationTime T) (so1 so2 : SpendOrder) (f1 f2 : Flags)
    (par fuel n time1 time2 : Nat) (hf : ∀ spk, (w.confirmed spk).length ≤ fuel)
    (hlen1 : ∀ l, syncSpks t f1.resolve = some l → l.length ≤ u64Max) {t1 t2 : Tracker K D ConfirmationTime T}
    (hlen2 : ∀ l, syncSpks t1 f2.resolve = some l → l.length ≤ u64Max) {cs1 cs2 : KeychainChangeSet K ConfirmationTime T}
    (hok1 : esploraSync s o1 o1' so1 t f1 par fuel (n + 1) time1 = .ok (t1, .ok cs1))
    (hok2 : esploraSync s o2 o2' so2 t1 f2 par fuel (n + 1) time2 = .ok (t2, .ok cs2)) (hu : f2.resolve.unconfirmed = true) {x : Txid}
    (hin : InChain t2.chainGraph.chain x) {e : T × Esplora.Place} (he : w.find x = some e) :
    t2.chainGraph.chain.txPosition x = some (Esplora.positionOf e.2) := by
  obtain ⟨t0, cs0, h1, h2⟩ := sync_after hs hw hx h o1 o1' so1 f1 par fuel n time1 hf hlen1
  rw [hok1] at h1
  cases h1
  exact C63_sync_settles hs hw hx h2.ready o2 o2' so2 f2 par fuel n time2 hf hlen2 hok2 h2.synced hu hin he

/-! ## over time -/

/-- **C63** a wallet that lives with honest servers always has all its blocks in the chain of its last command, and everything it has as
confirmed was confirmed there, at that position -/
theorem C63_life_truth {t : Tracker K D ConfirmationTime T} {v : View ConfirmationTime T} (h : Life t v) :
    v.Sound ∧ Synced t v ∧
    ∀ x p k, t.chainGraph.chain.txPosition x = some p → ChainPosition.height p = .confirmed k → ∃ y, v.find x = some (y, p) := by
  have main : v.Sound ∧ Synced t v := by
    induction h with
    | new hr hd hn hroom hc ht hv =>
      refine ⟨hv, ⟨hr, hd, hn, hroom, ⟨?_, ?_⟩, ?_, ?_, ?_⟩, ?_⟩
      · rintro k ⟨b, hb⟩; rw [hc] at hb; cases hb
      · intro x p k hp; rw [ht] at hp; cases hp
      · rintro k ⟨b, hb⟩; rw [hc] at hb; cases hb
      · intro a b x y _ hx; rw [hc] at hx; cases hx
      · intro x p k hp; rw [ht] at hp; cases hp
      · intro k b hb; rw [hc] at hb; cases hb
    | owner op r _ hl hr ih => exact ⟨ih.1, ih.2.local hl hr⟩
    | scan s w o o' gap par fuel n time t' r _ hs hlat hf hok ih =>
      have hready := ih.2.moves ih.1 hlat.kin hlat.below hlat.covered
      obtain ⟨t1, cs1, la, h1, h2, -⟩ := scan_after hs hlat.sound hlat.indexed hready o o' gap par fuel n time hf
      rw [hok] at h1
      cases h1
      exact ⟨viewOf_sound hlat.sound hlat.indexed, h2.synced⟩
    | sync s w o o' so f par fuel n time t' r _ hs hlat hf hlen hok ih =>
      have hready := ih.2.moves ih.1 hlat.kin hlat.below hlat.covered
      obtain ⟨t1, cs1, h1, h2⟩ := sync_after hs hlat.sound hlat.indexed hready o o' so f par fuel n time hf hlen
      rw [hok] at h1
      cases h1
      exact ⟨viewOf_sound hlat.sound hlat.indexed, h2.synced⟩
  exact ⟨main.1, main.2, fun x p k hp hk => main.2.ready.truthful x p k hp hk fun a b _ hb => main.2.headers a b hb⟩

/-- **C63** ... and never gets stuck: its next `Scan` or `Sync` succeeds -/
theorem C63_life_commands_succeed {t : Tracker K D ConfirmationTime T} {v : View ConfirmationTime T} (h : Life t v) {s : Esplora.Server T}
    {w : Esplora.World T} (hs : s.Shows w) (hl : Later t v w) (o o' : Orders ConfirmationTime T) (par fuel n time : Nat)
    (hf : ∀ spk, (w.confirmed spk).length ≤ fuel) :
    (∀ gap, ∃ t' cs, esploraScan s o o' t gap par fuel (n + 1) time = .ok (t', .ok cs)) ∧
    ∀ so f, (∀ l, syncSpks t f.resolve = some l → l.length ≤ u64Max) →
      ∃ t' cs, esploraSync s o o' so t f par fuel (n + 1) time = .ok (t', .ok cs) := by
  obtain ⟨hv, hsy, -⟩ := C63_life_truth h
  have hready := hsy.moves hv hl.kin hl.below hl.covered
  constructor
  · intro gap
    obtain ⟨t1, cs1, la, h1, -⟩ := scan_after hs hl.sound hl.indexed hready o o' gap par fuel n time hf
    exact ⟨t1, cs1, h1⟩
  · intro so f hlen
    obtain ⟨t1, cs1, h1, -⟩ := sync_after hs hl.sound hl.indexed hready o o' so f par fuel n time hf hlen
    exact ⟨t1, cs1, h1⟩

/-- **C63** while the chain only grows, the conditions of a later moment hold by themselves -/
theorem C63_growing_chain {t : Tracker K D ConfirmationTime T} {v : View ConfirmationTime T} (h : Life t v) {w : Esplora.World T}
    (hw : w.Sound) (hx : Indexed w) (hk : Kin v (viewOf w)) (hg : w.header v.tip.height = some v.tip.hash) : Later t v w := by
  obtain ⟨hv, hsy, -⟩ := C63_life_truth h
  refine ⟨hw, hx, hk, fun k hc => ?_, covered_of_tip hsy hv hk hg⟩
  exact le_trans (hsy.ready.below k hc) ((hw.headers _).1 ⟨_, hg⟩)

/-! ## findings -/

/-- **C63 finding** an output whose transaction the wallet already has, but which was not indexed when it came (its script was not
stored then), is not found by any later `Scan` or `Sync`, although the script is asked for -/
theorem C63_scan_misses_late_output {t : Tracker K D ConfirmationTime T} {s : Esplora.Server T} {w : Esplora.World T} (hs : s.Shows w) (hw : w.Sound)
    (hx : Indexed w) (h : Ready t (viewOf w)) (o o' : Orders ConfirmationTime T) (par fuel n time : Nat)
    (hf : ∀ spk, (w.confirmed spk).length ≤ fuel) {t' : Tracker K D ConfirmationTime T} {cs : KeychainChangeSet K ConfirmationTime T}
    (hok : (∃ gap, esploraScan s o o' t gap par fuel (n + 1) time = .ok (t', .ok cs)) ∨
      ∃ so f, (∀ l, syncSpks t f.resolve = some l → l.length ≤ u64Max) ∧ esploraSync s o o' so t f par fuel (n + 1) time = .ok (t', .ok cs))
    {op : OutPoint} (hin : t.chainGraph.graph.getTx op.txid ≠ none) (hno : t.txoutIndex.inner.txout op = none) :
    t'.txoutIndex.inner.txout op = none ∧ ∀ so, ∀ e ∈ t'.fullUtxos so, e.2.outpoint ≠ op := by
  have hkey : ∀ S la, After t (viewOf w) S la t' → t'.txoutIndex.inner.txout op = none ∧ ∀ so, ∀ e ∈ t'.fullUtxos so, e.2.outpoint ≠ op := by
    intro S la ha
    have hn : t'.txoutIndex.inner.txout op = none := by rw [ha.indexKept op hin, hno]
    refine ⟨hn, ?_⟩
    rintro so ⟨⟨k, i⟩, g⟩ hm rfl
    obtain ⟨⟨x, hx⟩, -⟩ := ((C39_full_utxos t' ha.ready.reachable so).1 k i g).1 hm
    rw [hn] at hx; cases hx
  rcases hok with ⟨gap, hok⟩ | ⟨so, f, hlen, hok⟩
  · obtain ⟨t1, cs1, la, h1, h2, -⟩ := scan_after hs hw hx h o o' gap par fuel n time hf
    rw [hok] at h1
    cases h1
    exact hkey _ _ h2
  · obtain ⟨t1, cs1, h1, h2⟩ := sync_after hs hw hx h o o' so f par fuel n time hf hlen
    rw [hok] at h1
    cases h1
    exact hkey _ _ h2

/-! ## examples -/

/-- script 1 of keychain 1 is asked for with stop gap 3 -/
theorem exAsked : Asked exT exW 3 (max 2 1) 1 1 5 := by
  obtain ⟨l, h1, h2, h3⟩ := (C63_scan_request exT.txoutIndex (demo_allDerivable _) 1).2 ⟨true, 1⟩ (by decide +kernel)
  refine ⟨l, h1, Esplora.reached_of_gap exW 3 (max 2 1) (by decide) l 1 (by rw [h2]; decide) ?_, ?_⟩
  · rintro ⟨i, h, -⟩; omega
  · exact (h3 1 1 5).2 ⟨rfl, by decide, by decide⟩

/-- the hypotheses of the theorems about `Scan` are met by a wallet with a stale block: transaction 1 moves from block 5 to block 4, and
the payment to script 1 of keychain 1 in the mempool is found and shown -/
example : ∃ t' cs, esploraScan (Esplora.serverOf fun _ => exW) oC oC exT 3 2 50 1 0 = .ok (t', .ok cs) ∧
    t'.chainGraph.chain.latestCheckpoint = some ⟨6, 106⟩ ∧
    t'.chainGraph.chain.txPosition (dId 3) = some .unconfirmed ∧ 1 < numRevealed t'.txoutIndex 1 ∧
    (∃ f, ((1, 1), f) ∈ t'.fullUtxos soId ∧ f.outpoint = ⟨dId 3, 0⟩) := by
  have hs := Esplora.shows_serverOf exW (sound_worldOf exL_ok)
  have hw := sound_worldOf (hash := exHash) exL_ok
  have hx := indexed_worldOf (hash := exHash) exL_ok
  have hf := confirmed_le (hash := exHash) exL_ok
  obtain ⟨t', cs, h1, -, h3, -, -⟩ := C63_scan_succeeds hs hw hx exT_ready oC oC 3 2 50 0 0 hf
  obtain ⟨h4, -, h5⟩ := C63_scan_finds hs hw hx exT_ready oC oC 3 2 50 0 0 hf h1 exAsked (e := (d 3, none))
    ((worldOf_history exL_ok).2 ⟨3, rfl, by decide, by decide⟩)
  have hout : OutputIn (viewOf exW).find ⟨dId 3, 0⟩ ⟨18, 5⟩ .unconfirmed :=
    ⟨d 3, viewOf_find.2 ⟨(d 3, none), (worldOf_find exL_ok).2 ⟨3, rfl, rfl, by decide⟩, rfl⟩, rfl⟩
  have h6 := (C63_scan_shows_money hs hw hx exT_ready oC oC 3 2 50 0 0 hf h1 soId exAsked hout (.inl (by decide +kernel))).1
  refine ⟨t', cs, h1, h3 (by decide +kernel), h4, h5, h6.2 ⟨?_, ?_⟩⟩
  · rintro ⟨y, e, he, hin, hn⟩
    obtain ⟨e0, he0, rfl⟩ := viewOf_find.1 he
    obtain ⟨m, -, hm, hml⟩ := (worldOf_find exL_ok).1 he0
    simp only at hin
    rw [hm] at hin
    have : ∀ e ∈ exL, (⟨dId 3, 0⟩ : OutPoint) ∉ (demoTx e.1).input := by decide
    exact this _ hml hin
  · rintro ⟨z, y, hz, hnf, hy, hin, -⟩
    obtain ⟨t1, cs1, la, g1, g2, -⟩ := scan_after hs hw hx exT_ready oC oC 3 2 50 0 0 hf
    rw [h1] at g1
    cases g1
    have hall : ∀ e ∈ exT.chainGraph.chain.txidToPos.entries, (exW.find e.1).isSome = true := by decide +kernel
    rcases g2.only z hz with ⟨-, e, he⟩ | h8
    · obtain ⟨e0, he0, -⟩ := viewOf_find.1 he
      rw [hnf] at he0; cases he0
    · obtain ⟨p, hp⟩ := Option.ne_none_iff_exists'.1 h8
      have := hall (z, p) (OMap.mem_entries.2 hp)
      simp only [hnf] at this
      cases this

/-- the hypotheses of the theorems about `Sync`, and what it does to the same wallet -/
example : (Esplora.serverOf fun _ => exW).Shows exW ∧ exW.Sound ∧ Indexed exW ∧ Ready exT (viewOf exW) ∧
    (∀ spk, (exW.confirmed spk).length ≤ 50) ∧ (∀ l, syncSpks exT plain.resolve = some l → l.length ≤ u64Max) ∧
    (∃ t', runSync exW exT plain = some t' ∧ t'.chainGraph.chain.latestCheckpoint = some ⟨6, 106⟩ ∧
      t'.chainGraph.chain.checkpointAt 5 = some ⟨5, 105⟩ ∧
      t'.chainGraph.chain.txPosition (dId 1) = some (.confirmed 4 7) ∧ t'.chainGraph.chain.txPosition (dId 3) = some .unconfirmed ∧
      (t'.fullUtxos soId).map (fun e => (e.1, e.2.outpoint)) = [((2, 0), ⟨dId 1, 0⟩), ((1, 1), ⟨dId 3, 0⟩)]) := by
  refine ⟨Esplora.shows_serverOf exW (sound_worldOf exL_ok), sound_worldOf exL_ok, indexed_worldOf exL_ok, exT_ready, confirmed_le exL_ok, ?_, ?_⟩
  · intro l hl
    have : ∀ l ∈ syncSpks exT plain.resolve, l.length ≤ u64Max := by decide +kernel
    exact this l hl
  · have h : ∀ t' ∈ runSync exW exT plain, t'.chainGraph.chain.latestCheckpoint = some ⟨6, 106⟩ ∧
      t'.chainGraph.chain.checkpointAt 5 = some ⟨5, 105⟩ ∧
      t'.chainGraph.chain.txPosition (dId 1) = some (.confirmed 4 7) ∧ t'.chainGraph.chain.txPosition (dId 3) = some .unconfirmed ∧
      (t'.fullUtxos soId).map (fun e => (e.1, e.2.outpoint)) = [((2, 0), ⟨dId 1, 0⟩), ((1, 1), ⟨dId 3, 0⟩)] := by decide +kernel
    have hsome : (runSync exW exT plain).isSome = true := by decide +kernel
    obtain ⟨t', ht'⟩ := Option.isSome_iff_exists.1 hsome
    exact ⟨t', ht', h t' ht'⟩

/-- a new wallet meets the hypotheses of `C63_scan_restores` -/
example : Ready fresh (viewOf exW) ∧ (∀ y, fresh.chainGraph.graph.getTx y = none) ∧ ∀ y, ¬ InChain fresh.chainGraph.chain y :=
  ⟨fresh_ready, fun _ => rfl, fun _ h => h rfl⟩

/-! ### a life with a reorganisation -/

/-- the same world when block 4 was the tip -/
def exW0 : Esplora.World DemoTx := worldOf [(0, some (2, 5)), (1, some (4, 7))] 4 exHash
/-- blocks from 4 on are replaced; transaction 1 is in block 5 and transaction 3 in block 6 of the new chain -/
def exHash2 : Nat → BlockHash := fun h => if h ≤ 3 then 100 + h else 200 + h
def exL2 : List (Fin 8 × Esplora.Place) := [(0, some (2, 5)), (1, some (5, 8)), (3, some (6, 9))]
def exW2 : Esplora.World DemoTx := worldOf exL2 7 exHash2

/-- the wallet after the first `Sync` -/
def exA : DemoWallet := (runSync exW0 fresh plain).getD fresh
/-- ... after an address was asked for ... -/
def exB : DemoWallet := ((exA.step (.revealNextSpk 0)).map Prod.fst).getD exA
/-- ... and after the second `Sync` -/
def exC : DemoWallet := (runSync exW exB plain).getD exB

theorem exLife_step {t : DemoWallet} {v : View ConfirmationTime DemoTx} {l : List (Fin 8 × Esplora.Place)} {tip : Nat} {hash : Nat → BlockHash}
    (h : Life t v) (hok : OkList l tip) (hl : Later t v (worldOf l tip hash))
    (hlen : ∀ l ∈ syncSpks t plain.resolve, l.length ≤ u64Max) (hrun : (runSync (worldOf l tip hash) t plain).isSome = true) (t0 : DemoWallet) :
    Life ((runSync (worldOf l tip hash) t plain).getD t0) (viewOf (worldOf l tip hash)) := by
  obtain ⟨t', ht'⟩ := Option.isSome_iff_exists.1 hrun
  obtain ⟨cs, hcs⟩ := runSync_ok ht'
  rw [ht']
  exact Life.sync _ _ oC oC soId plain 2 50 0 0 t' _ h (Esplora.shows_serverOf _ (sound_worldOf hok)) hl (confirmed_le hok) hlen hcs

theorem exLife_A : Life exA (viewOf exW0) := by
  have hok : OkList [(0, some (2, 5)), (1, some (4, 7))] 4 := by decide
  have hnew : Life fresh (viewOf exW0) := .new fresh_reachable (demo_allDerivable _) (demo_noCollision (by decide +kernel)) (by unfold Room; decide +kernel)
    (fun _ => rfl) (fun _ => rfl) (viewOf_sound (sound_worldOf hok) (indexed_worldOf hok))
  refine exLife_step hnew hok ⟨sound_worldOf hok, indexed_worldOf hok, kin_of hok hok 4 (fun _ _ => rfl) (fun a h1 _ h3 => absurd h1 (by omega))
    (fun e he _ _ _ => he), ?_, ?_⟩ (by decide +kernel) (by decide +kernel) fresh
  · rintro h ⟨b, hb⟩; cases hb
  · intro x p k hp; cases hp

theorem exLife_B : Life exB (viewOf exW0) := by
  have h : (exA.step (.revealNextSpk 0)).isSome = true := by decide +kernel
  obtain ⟨r, hr⟩ := Option.isSome_iff_exists.1 h
  unfold exB
  rw [hr]
  exact .owner (.revealNextSpk 0) r exLife_A trivial hr

theorem exLife_C : Life exC (viewOf exW) := by
  refine exLife_step exLife_B exL_ok (C63_growing_chain exLife_B (sound_worldOf exL_ok) (indexed_worldOf exL_ok) ?_ rfl) (by decide +kernel)
    (by decide +kernel) exB
  exact kin_of (by decide) exL_ok 4 (fun _ _ => rfl) (fun a h1 _ h3 => absurd h1 (by omega)) (by decide)

/-- the wallet meets the reorganised chain: its block 4 has left, so transaction 1, confirmed there, is covered -/
theorem exLife_later : Later exC (viewOf exW) exW2 := by
  have hok : OkList exL2 7 := by decide
  have hcps : exC.chainGraph.chain.checkpoints.entries = [(4, 104), (6, 106)] := by decide +kernel
  refine ⟨sound_worldOf hok, indexed_worldOf hok, kin_of exL_ok hok 3 ?_ ?_ (by decide), ?_, ?_⟩
  · intro a ha; unfold exHash2; rw [if_pos ha]; rfl
  · intro a _ _ ha; unfold exHash2 exHash; rw [if_neg (by omega)]; intro h; have h' : (200 + a : Nat) = 100 + a := h; omega
  · rintro h ⟨b, hb⟩
    unfold checkpointAt at hb
    obtain ⟨x, hx, -⟩ := Option.map_eq_some_iff.1 hb
    have := OMap.mem_entries.2 hx
    rw [hcps] at this
    simp at this
    rcases this with ⟨rfl, -⟩ | ⟨rfl, -⟩ <;> decide
  · intro x p k hp hk hne
    have hk3 : 3 < k := by
      by_contra hle
      apply hne
      have h1 : k ≤ 3 := by omega
      show (if k ≤ 7 then some (exHash2 k) else none) = (if k ≤ 6 then some (exHash k) else none)
      rw [if_pos (by omega), if_pos (by omega)]
      unfold exHash2 exHash
      rw [if_pos h1]
    exact ⟨4, ⟨4, 104⟩, hk3, by unfold checkpointAt; decide +kernel, by decide⟩

/-- ... and `Sync` succeeds and sets everything right -/
example : (∀ gap, ∃ t' cs, esploraScan (Esplora.serverOf fun _ => exW2) oC oC exC gap 2 50 1 0 = .ok (t', .ok cs)) ∧
    exC.chainGraph.chain.txPosition (dId 1) = some (.confirmed 4 7) ∧
    ∀ t' ∈ runSync exW2 exC plain, t'.chainGraph.chain.txPosition (dId 1) = some (.confirmed 5 8) ∧
      t'.chainGraph.chain.txPosition (dId 3) = some (.confirmed 6 9) ∧
      t'.chainGraph.chain.checkpoints.entries = [(4, 204), (6, 206), (7, 207)] := by
  refine ⟨fun gap => ?_, by decide +kernel, by decide +kernel⟩
  exact (C63_life_commands_succeed exLife_C (Esplora.shows_serverOf _ exLife_later.sound) exLife_later oC oC 2 50 0 0
    (confirmed_le (by decide))).1 gap

/-! ### findings -/

/-- **C63 finding** a transaction that was dropped from the mempool stays in the wallet: no `Sync` removes it, and its output is still
shown -/
theorem C63_dropped_tx_stays : ∃ (t : DemoWallet) (w w' : Esplora.World DemoTx), Life t (viewOf w) ∧ Later t (viewOf w) w' ∧
    w'.find (dId 3) = none ∧
    ∀ t' ∈ runSync w' t plain, t'.chainGraph.chain.txPosition (dId 3) = some .unconfirmed ∧
      (t'.fullUtxos soId).any (fun e => e.2.outpoint == ⟨dId 3, 0⟩) = true := by
  have hok : OkList [(0, some (2, 5)), (1, some (4, 7))] 6 := by decide
  refine ⟨exC, exW, worldOf [(0, some (2, 5)), (1, some (4, 7))] 6 exHash, exLife_C, ?_, rfl, by decide +kernel⟩
  exact C63_growing_chain exLife_C (sound_worldOf hok) (indexed_worldOf hok) (kin_of exL_ok hok 6 (fun _ _ => rfl)
    (fun a h1 _ h3 => absurd h1 (by omega)) (by decide)) rfl

/-- the example's world with another chain from block 4 on: transaction 1 is replaced by transaction 2, which spends the same output
and pays to script 1 of keychain 0 -/
def exWstuck : Esplora.World DemoTx := worldOf [(0, some (2, 5)), (2, some (5, 8))] 7 exHash2
/-- a wallet that was first synced at block 6 -/
def exD : DemoWallet := (runSync exW fresh plain).getD fresh

theorem exLife_D : Life exD (viewOf exW) := by
  have hnew : Life fresh (viewOf exW) := .new fresh_reachable (demo_allDerivable _) (demo_noCollision (by decide +kernel)) (by unfold Room; decide +kernel)
    (fun _ => rfl) (fun _ => rfl) (viewOf_sound (sound_worldOf exL_ok) (indexed_worldOf exL_ok))
  refine exLife_step hnew exL_ok ⟨sound_worldOf exL_ok, indexed_worldOf exL_ok, kin_of exL_ok exL_ok 6 (fun _ _ => rfl) (fun a h1 _ h3 => absurd h1 (by omega))
    (fun e he _ _ _ => he), ?_, ?_⟩ (by decide +kernel) (by decide +kernel) fresh
  · rintro h ⟨b, hb⟩; cases hb
  · intro x p k hp; cases hp

/-- **C63 finding** a reorganisation can make every later `Sync` fail.  The wallet was synced at block 6 and has transaction 1 as
confirmed in block 4, but no block between 4 and the fork; in the new chain a conflicting transaction is confirmed.  The wallet only
withdraws what is in or above its own first stale block (6), keeps transaction 1 as confirmed, and rejects the update as an
unresolvable conflict.  The wallet is left as it is, so the next `Sync` fails in the same way. -/
theorem C63_reorg_blocks_sync : ∃ (t : DemoWallet) (w w' : Esplora.World DemoTx), Life t (viewOf w) ∧ w'.Sound ∧ Indexed w' ∧
    Kin (viewOf w) (viewOf w') ∧ (∀ h, HasCp t.chainGraph.chain h → h ≤ w'.tip.height) ∧
    t.chainGraph.chain.txPosition (dId 1) = some (.confirmed 4 7) ∧ w'.find (dId 1) = none ∧
    ∃ e, esploraSync (Esplora.serverOf fun _ => w') oC oC soId t plain 2 50 1 0 = .ok (t, .error (.unresolvableConflict e)) ∧
      e.alreadyConfirmedTx.2 = dId 1 ∧ e.updateTx.2 = dId 2 := by
  have hok : OkList [(0, some (2, 5)), (2, some (5, 8))] 7 := by decide
  have hcps : exD.chainGraph.chain.checkpoints.entries = [(6, 106)] := by decide +kernel
  refine ⟨exD, exW, exWstuck, exLife_D, sound_worldOf hok, indexed_worldOf hok, kin_of exL_ok hok 3 ?_ ?_ (by decide), ?_, by decide +kernel, rfl, ?_⟩
  · intro a ha; unfold exHash2; rw [if_pos ha]; rfl
  · intro a _ _ ha; unfold exHash2 exHash; rw [if_neg (by omega)]; intro h; have h' : (200 + a : Nat) = 100 + a := h; omega
  · rintro h ⟨b, hb⟩
    unfold checkpointAt at hb
    obtain ⟨x, hx, -⟩ := Option.map_eq_some_iff.1 hb
    have := OMap.mem_entries.2 hx
    rw [hcps] at this
    simp at this
    obtain ⟨rfl, -⟩ := this
    decide
  · have h : (match esploraSync (Esplora.serverOf fun _ => exWstuck) oC oC soId exD plain 2 50 1 0 with
      | .ok (_, .error (.unresolvableConflict e)) => decide (e.alreadyConfirmedTx.2 = dId 1) && decide (e.updateTx.2 = dId 2)
      | _ => false) = true := by decide +kernel
    rcases hq : esploraSync (Esplora.serverOf fun _ => exWstuck) oC oC soId exD plain 2 50 1 0 with ⟨t1, e | cs⟩ | _ | _ | _
    · rw [hq] at h
      cases e with
      | chain => cases h
      | unresolvableConflict e =>
        simp only [Bool.and_eq_true, decide_eq_true_eq] at h
        have : t1 = exD := sync_error hq
        subst this
        exact ⟨e, rfl, h⟩
    · rw [hq] at h; cases h
    · rw [hq] at h; cases h
    · rw [hq] at h; cases h
    · rw [hq] at h; cases h

/-- a wallet whose block 2 has left the best chain, with transaction 0 in it; transaction 1 spends it -/
def exE : DemoWallet := walletOf [.insertCheckpoint ⟨2, 999⟩ oC, .insertTx (d 0) (.confirmed 2 1) oC, .insertTx (d 1) .unconfirmed oC]

/-- **C63 finding** one `Sync` after a reorganisation is not enough: a spent transaction of a stale block, which is confirmed again, is
left as unconfirmed and only found by the next `Sync` (cf. `C63_two_syncs`) -/
theorem C63_one_sync_not_enough : Ready exE (viewOf exW) ∧ exW.find (dId 0) = some (d 0, some (2, 5)) ∧
    (∀ t' ∈ runSync exW exE plain, t'.chainGraph.chain.txPosition (dId 0) = some .unconfirmed) ∧
    ∀ t' ∈ (runSync exW exE plain).bind (runSync exW · plain), t'.chainGraph.chain.txPosition (dId 0) = some (.confirmed 2 5) :=
  ⟨ready_of (walletOf_reachable _ (by simp [TrOpOk])) exL_ok (by decide +kernel), rfl, by decide +kernel, by decide +kernel⟩

/-- a new wallet with lookahead 1 for keychain 1 -/
def exF0 : DemoWallet := { fresh with txoutIndex := ((fresh.txoutIndex.setLookahead 1 1)).getD fresh.txoutIndex }
/-- transaction 2 pays to keychain 0, transaction 6 spends that and pays to script 2 of keychain 1 -/
def exLF : List (Fin 8 × Esplora.Place) := [(0, some (2, 5)), (2, some (3, 6)), (6, some (4, 7))]
def exWF : Esplora.World DemoTx := worldOf exLF 6 exHash
def exF1 : DemoWallet := (runSync exWF exF0 plain).getD exF0
def exF2 : DemoWallet := ((exF1.step (.revealNextSpk 1)).map Prod.fst).getD exF1
/-- ... script 2 of keychain 1 is revealed to the owner -/
def exF : DemoWallet := ((exF2.step (.revealNextSpk 1)).map Prod.fst).getD exF2

theorem exLife_F : Life exF (viewOf exWF) := by
  have hok : OkList exLF 6 := by decide
  have hr : exF0.Reachable := by
    have h : (fresh.txoutIndex.setLookahead 1 1).isSome = true := by decide +kernel
    obtain ⟨i, hi⟩ := Option.isSome_iff_exists.1 h
    unfold exF0
    rw [hi]
    exact Tracker.Reachable.index (.setLookahead 1 1) (i, OMap.empty) fresh_reachable (by simp only [KeychainIndex.step, hi]; rfl)
  have hnew : Life exF0 (viewOf exWF) := .new hr (demo_allDerivable _) (demo_noCollision (by decide +kernel)) (by unfold Room; decide +kernel)
    (fun _ => rfl) (fun _ => rfl) (viewOf_sound (sound_worldOf hok) (indexed_worldOf hok))
  have h1 : Life exF1 (viewOf exWF) := by
    refine exLife_step hnew hok ⟨sound_worldOf hok, indexed_worldOf hok, kin_of hok hok 6 (fun _ _ => rfl) (fun a h1 _ h3 => absurd h1 (by omega))
      (fun e he _ _ _ => he), ?_, ?_⟩ (by decide +kernel) (by decide +kernel) exF0
    · rintro h ⟨b, hb⟩; cases hb
    · intro x p k hp; cases hp
  have h2 : Life exF2 (viewOf exWF) := by
    have h : (exF1.step (.revealNextSpk 1)).isSome = true := by decide +kernel
    obtain ⟨r, hr⟩ := Option.isSome_iff_exists.1 h
    unfold exF2
    rw [hr]
    exact .owner (.revealNextSpk 1) r h1 trivial hr
  have h : (exF2.step (.revealNextSpk 1)).isSome = true := by decide +kernel
  obtain ⟨r, hr⟩ := Option.isSome_iff_exists.1 h
  unfold exF
  rw [hr]
  exact .owner (.revealNextSpk 1) r h2 trivial hr

/-- **C63 finding** the concrete case of `C63_scan_misses_late_output`: money in an unspent output that pays a revealed script is not
shown, neither after `Scan` (with any stop gap) nor after `Sync`, although the script is asked for -/
theorem C63_money_not_shown : Life exF (viewOf exWF) ∧ SyncAsked exF plain.resolve 1 2 9 ∧
    OutputIn (viewOf exWF).find ⟨dId 6, 0⟩ ⟨44, 9⟩ (.confirmed 4 7) ∧ (¬ ∃ y, SpentIn (viewOf exWF).find ⟨dId 6, 0⟩ y) ∧
    (∀ gap t' cs, esploraScan (Esplora.serverOf fun _ => exWF) oC oC exF gap 2 50 1 0 = .ok (t', .ok cs) →
      ∀ so, ∀ e ∈ t'.fullUtxos so, e.2.outpoint ≠ ⟨dId 6, 0⟩) ∧
    ∀ t' cs, esploraSync (Esplora.serverOf fun _ => exWF) oC oC soId exF plain 2 50 1 0 = .ok (t', .ok cs) →
      ∀ so, ∀ e ∈ t'.fullUtxos so, e.2.outpoint ≠ ⟨dId 6, 0⟩ := by
  have hok : OkList exLF 6 := by decide
  have hs := Esplora.shows_serverOf exWF (sound_worldOf hok)
  have hready : Ready exF (viewOf exWF) := (C63_life_truth exLife_F).2.1.ready
  have hin : exF.chainGraph.graph.getTx (dId 6) ≠ none := by decide +kernel
  have hno : exF.txoutIndex.inner.txout ⟨dId 6, 0⟩ = none := by decide +kernel
  refine ⟨exLife_F, ⟨by decide +kernel, .inr ⟨rfl, by decide +kernel⟩⟩,
    ⟨d 6, viewOf_find.2 ⟨(d 6, some (4, 7)), (worldOf_find hok).2 ⟨6, rfl, rfl, by decide⟩, rfl⟩, rfl⟩, ?_, ?_, ?_⟩
  · rintro ⟨y, e, he, hin, hn⟩
    obtain ⟨e0, he0, rfl⟩ := viewOf_find.1 he
    obtain ⟨m, -, hm, hml⟩ := (worldOf_find hok).1 he0
    simp only at hin
    rw [hm] at hin
    have : ∀ e ∈ exLF, (⟨dId 6, 0⟩ : OutPoint) ∉ (demoTx e.1).input := by decide
    exact this _ hml hin
  · intro gap t' cs h
    exact (C63_scan_misses_late_output hs (sound_worldOf hok) (indexed_worldOf hok) hready oC oC 2 50 0 0 (confirmed_le hok) (.inl ⟨gap, h⟩) hin hno).2
  · intro t' cs h
    exact (C63_scan_misses_late_output hs (sound_worldOf hok) (indexed_worldOf hok) hready oC oC 2 50 0 0 (confirmed_le hok)
      (.inr ⟨soId, plain, by
        intro l hl
        have : ∀ l ∈ syncSpks exF plain.resolve, l.length ≤ u64Max := by decide +kernel
        exact this l hl, h⟩) hin hno).2

end Verif.Sync
