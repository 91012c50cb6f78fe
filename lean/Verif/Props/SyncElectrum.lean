import Verif.Lemmas.SyncElectrum3

/-!
# Property C64: `Scan` and `Sync` of the electrum example wallet
-/

namespace Verif.Sync
open Verif Spec Props SparseChain ChainGraph
variable {K D T : Type} [LinearOrder K] [DescriptorOps D] [DecidableEq D] [LinearOrder T] [AsTransaction T] [LawfulTx T]

/-! ## `Scan` -/

section
variable {t : Tracker K D TxHeight T} {s : Electrum.Server} {get : Txid → Option T} {w : Electrum.World} {v : View TxHeight T}
  (hs : ShowsView s get w v) (h : Ready t v) (ho : Electrum.Order) (so : SpendOrder) (o : Orders TxHeight T) (gap bs n time : Nat)
  (hbs : 0 < bs)
include hs h hbs

/-- **C64** `Scan` with an honest server succeeds in its first round; afterwards the wallet's tip is the server's, all its blocks are in
the best chain, and what it has as confirmed is confirmed there, at that height -/
theorem C64_scan_succeeds : ∃ t' cs, electrumScan s get ho so o t gap bs (n + 1) time = .ok (t', .ok cs) ∧
    Ready t' v ∧ (t.chainGraph.chain.checkpointLimit ≠ some 0 → t'.chainGraph.chain.latestCheckpoint = some v.tip) ∧
    (∀ k b, t'.chainGraph.chain.checkpointAt k = some b → v.header k = some b.hash) ∧
    ∀ x k, t'.chainGraph.chain.txPosition x = some (.confirmed k) → ∃ y, v.find x = some (y, .confirmed k) := by
  obtain ⟨t', cs, la, h1, h2, -⟩ := escan_after hs h ho so o gap bs n time hbs
  exact ⟨t', cs, h1, h2.ready, h2.tip, h2.headers, fun x k hp => h2.confirmed x _ k hp rfl⟩

variable {t' : Tracker K D TxHeight T} {cs : KeychainChangeSet K TxHeight T}
  (hok : electrumScan s get ho so o t gap bs (n + 1) time = .ok (t', .ok cs))
include hok

/-- **C64** after `Scan` every transaction of a script that was asked for is in the wallet, in full and at the server's height, and
the script is revealed -/
theorem C64_scan_finds {k : K} {i : Nat} {spk : Script} (ha : ScanAsked t w gap k i spk) {x : Txid} {raw : Int}
    (hx : (x, raw) ∈ w.history spk) :
    (∃ y p, v.find x = some (y, p) ∧ Electrum.IsHeightOf raw v.tip.height x p ∧ t'.chainGraph.chain.txPosition x = some p ∧
      ∃ y', t'.chainGraph.graph.getTx x = some y' ∧ asTx y' = asTx y) ∧ i < numRevealed t'.txoutIndex k := by
  obtain ⟨t1, cs1, la, h1, h2, h3⟩ := escan_after hs h ho so o gap bs n time hbs
  rw [hok] at h1
  cases h1
  obtain ⟨y, p, h4, h5⟩ := hs.mirrors.height _ _ _ hx
  obtain ⟨h6, h7⟩ := h2.found _ _ h4 ⟨k, i, spk, raw, ha, hx⟩
  refine ⟨⟨y, p, h4, h5, h6, h7⟩, ?_⟩
  obtain ⟨j, hj, hij⟩ : ∃ j, la.get k = some j ∧ i ≤ j := by
    classical
    have hne : ∃ m, (∃ spk, ScanAsked t w gap k m spk ∧ w.history spk ≠ []) := ⟨i, spk, ha, List.ne_nil_of_mem hx⟩
    obtain ⟨l, hl, hr, hg⟩ := id ha
    obtain ⟨d, -, hlen, hget⟩ := spksOfAll_get h.derivable hl
    have hbound : ∀ m, (∃ spk, ScanAsked t w gap k m spk ∧ w.history spk ≠ []) → m ≤ cap d := by
      rintro m ⟨spk', ⟨l', hl', -, hg'⟩, -⟩
      rw [hl] at hl'
      cases hl'
      exact ((hget _ _ _).1 hg').2.1
    have hmax := Nat.findGreatest_spec (P := fun m => ∃ spk, ScanAsked t w gap k m spk ∧ w.history spk ≠ []) (n := cap d)
      (hbound i ⟨spk, ha, List.ne_nil_of_mem hx⟩) ⟨spk, ha, List.ne_nil_of_mem hx⟩
    refine ⟨_, (h3 k _).2 ⟨hmax, ?_⟩, Nat.le_findGreatest (hbound i ⟨spk, ha, List.ne_nil_of_mem hx⟩) ⟨spk, ha, List.ne_nil_of_mem hx⟩⟩
    intro m hm
    exact Nat.le_findGreatest (hbound m hm) hm
  exact lt_of_le_of_lt hij (h2.lastActive k j hj)

/-- **C64** after `Scan` an output that exists in the world and pays a script that was asked for is shown as unspent iff nothing in
the world spends it and no transaction of the wallet that is unknown to the server spends it; it is shown as what it is and at its
height.  (The transaction must be new to the wallet, or the output already indexed.) -/
theorem C64_scan_shows_money (so' : SpendOrder) {k : K} {i : Nat} {x : TxOut} (ha : ScanAsked t w gap k i x.spk) {op : OutPoint}
    {p : TxHeight} (hout : OutputIn v.find op x p)
    (hnew : t.chainGraph.graph.getTx op.txid = none ∨ t.txoutIndex.inner.txout op = some (toLex (k, i), x)) :
    ((∃ f, ((k, i), f) ∈ t'.fullUtxos so' ∧ f.outpoint = op) ↔
      (¬ ∃ y, SpentIn v.find op y) ∧
      ¬ ∃ z y, InChain t'.chainGraph.chain z ∧ v.find z = none ∧ t'.chainGraph.graph.getTx z = some y ∧ op ∈ (asTx y).input ∧
        op.isNull = false) ∧
    ∀ k' i' f, ((k', i'), f) ∈ t'.fullUtxos so' → f.outpoint = op → k' = k ∧ i' = i ∧ f.txout = x ∧ f.chainPosition = p := by
  obtain ⟨t1, cs1, la, h1, h2, h3⟩ := escan_after hs h ho so o gap bs n time hbs
  have hok' := hok
  rw [hok] at h1
  cases h1
  obtain ⟨y, hy, hyo⟩ := id hout
  obtain ⟨raw, hraw⟩ := hs.mirrors.pays _ _ _ hy (List.mem_of_getElem? hyo)
  have hS : ∃ k i spk raw, ScanAsked t w gap k i spk ∧ (op.txid, raw) ∈ w.history spk := ⟨k, i, _, raw, ha, hraw⟩
  refine utxo_iff h2 hs.sound so' hout hS ?_ (x0 := x) ?_
  · rintro z ⟨e, he, hin, hn⟩
    obtain ⟨raw', hraw'⟩ := hs.mirrors.spends _ _ _ _ _ he hin hn hy hyo
    exact ⟨k, i, _, raw', ha, hraw'⟩
  · obtain ⟨l, hl, hr, hg⟩ := id ha
    obtain ⟨d, hd, -, h6⟩ := spksOfAll_get h.derivable hl
    obtain ⟨-, h7, h8⟩ := (h6 _ _ _).1 hg
    apply h2.indexed op x p k i hout hS _ hnew
    by_cases hst : stored t.txoutIndex k i = some x.spk
    · exact .inl hst
    · right
      classical
      have hact : ∃ spk, ScanAsked t w gap k i spk ∧ w.history spk ≠ [] := ⟨_, ha, List.ne_nil_of_mem hraw⟩
      have hbound : ∀ m, (∃ spk, ScanAsked t w gap k m spk ∧ w.history spk ≠ []) → m ≤ cap d := by
        rintro m ⟨spk', ⟨l', hl', -, hg'⟩, -⟩
        rw [hl] at hl'
        cases hl'
        exact ((h6 _ _ _).1 hg').2.1
      have hmax := Nat.findGreatest_spec (P := fun m => ∃ spk, ScanAsked t w gap k m spk ∧ w.history spk ≠ []) (n := cap d)
        (hbound i hact) hact
      exact ⟨d, _, hd, h7, h8, (h3 k _).2 ⟨hmax, fun m hm => Nat.le_findGreatest (hbound m hm) hm⟩, Nat.le_findGreatest (hbound i hact) hact⟩

/-- **C64** after `Scan` an output that pays a script that was asked for and that is spent in the world is not shown -/
theorem C64_scan_spent_not_shown (so' : SpendOrder) {k : K} {i : Nat} {x : TxOut} (ha : ScanAsked t w gap k i x.spk)
    {op : OutPoint} {p : TxHeight} (hout : OutputIn v.find op x p) {y : Txid} (hy : SpentIn v.find op y) :
    ∀ e ∈ t'.fullUtxos so', e.2.outpoint ≠ op := by
  obtain ⟨t1, cs1, la, h1, h2, h3⟩ := escan_after hs h ho so o gap bs n time hbs
  rw [hok] at h1
  cases h1
  rintro ⟨⟨k', i'⟩, f⟩ hm rfl
  obtain ⟨-, -, -, hno⟩ := ((C39_full_utxos t' h2.ready.reachable so').1 k' i' f).1 hm
  obtain ⟨z, hz, hzo⟩ := hout
  obtain ⟨ey, hey, hin, hnn⟩ := hy
  obtain ⟨raw, hraw⟩ := hs.mirrors.spends _ _ _ _ _ hey hin hnn hz hzo
  obtain ⟨h4, ys, h5, h6⟩ := h2.found _ _ hey ⟨k, i, _, raw, ha, hraw⟩
  exact hno ⟨y, ys, by unfold InChain; rw [h4]; simp, h5, by rw [h6]; exact hin, hnn⟩

/-- **C64** a new wallet (or one restored from its descriptors alone): of the scripts that `Scan` asks for, it shows exactly the
outputs that exist and are unspent -/
theorem C64_scan_restores (hnew : (∀ y, t.chainGraph.graph.getTx y = none) ∧ ∀ y, ¬ InChain t.chainGraph.chain y) (so' : SpendOrder) {k : K} {i : Nat} {x : TxOut}
    (ha : ScanAsked t w gap k i x.spk) (op : OutPoint) (p : TxHeight) (hout : OutputIn v.find op x p) :
    (∃ f, ((k, i), f) ∈ t'.fullUtxos so' ∧ f.outpoint = op ∧ f.txout = x ∧ f.chainPosition = p) ↔
      ¬ ∃ y, SpentIn v.find op y := by
  obtain ⟨t1, cs1, la, h1, h2, h3⟩ := escan_after hs h ho so o gap bs n time hbs
  have h45 := C64_scan_shows_money hs h ho so o gap bs n time hbs hok so' ha hout (.inl (hnew.1 _))
  rw [hok] at h1
  cases h1
  obtain ⟨h4, h5⟩ := h45
  have hno : ¬ ∃ z y, InChain t'.chainGraph.chain z ∧ v.find z = none ∧ t'.chainGraph.graph.getTx z = some y ∧ op ∈ (asTx y).input ∧
        op.isNull = false := by
    rintro ⟨z, y, hz, hn, -⟩
    rcases h2.only z hz with ⟨-, e, he⟩ | h6
    · rw [hn] at he; cases he
    · exact hnew.2 z h6
  constructor
  · rintro ⟨f, hm, ho, -⟩
    exact (h4.1 ⟨f, hm, ho⟩).1
  · intro h6
    obtain ⟨f, hm, ho⟩ := h4.2 ⟨h6, hno⟩
    obtain ⟨-, -, h7, h8⟩ := h5 k i f hm ho
    exact ⟨f, hm, ho, h7, h8⟩

/-- **C64** a transaction of the wallet that the server does not know (dropped from the mempool, or its block has left the best chain)
goes away exactly if it is overruled: `Scan` brought a transaction that conflicts with it or with an ancestor of it.  Otherwise it stays,
as unconfirmed -/
theorem C64_scan_unknown {x : Txid} (hun : v.find x = none)
    (hin : InChain t.chainGraph.chain x) :
    (InChain t'.chainGraph.chain x ↔ ¬ Overruled t t' x) ∧ (InChain t'.chainGraph.chain x → IsUnconfirmed t'.chainGraph.chain x ∧
      (IsUnconfirmed t.chainGraph.chain x → t'.chainGraph.chain.txPosition x = t.chainGraph.chain.txPosition x)) := by
  obtain ⟨t1, cs1, la, h1, h2, -⟩ := escan_after hs h ho so o gap bs n time hbs
  rw [hok] at h1
  cases h1
  exact h2.fate hun hin

/-- **C64** money that the wallet shows and the server does not know (and nothing the server knows spends) is still shown after `Scan`, unless
its transaction is overruled -/
theorem C64_scan_unknown_money (so1 so2 : SpendOrder) {k : K} {i : Nat} {g : FullTxOut TxHeight} (hg : ((k, i), g) ∈ t.fullUtxos so1)
    (hun : v.find g.outpoint.txid = none) (hns : ¬ ∃ y, SpentIn v.find g.outpoint y) :
    (∃ g', ((k, i), g') ∈ t'.fullUtxos so2 ∧ g'.outpoint = g.outpoint ∧ g'.txout = g.txout) ↔ ¬ Overruled t t' g.outpoint.txid := by
  obtain ⟨t1, cs1, la, h1, h2, -⟩ := escan_after hs h ho so o gap bs n time hbs
  rw [hok] at h1
  cases h1
  exact h2.unknown_money h.reachable hs.sound so1 so2 hg hun hns

/-- **C64** `Scan` adds nothing else: a new transaction is in the history of a script that was asked for -/
theorem C64_scan_adds_only {x : Txid} (hin : InChain t'.chainGraph.chain x) (hnew : ¬ InChain t.chainGraph.chain x) :
    (∃ k i spk raw, ScanAsked t w gap k i spk ∧ (x, raw) ∈ w.history spk) ∧ ∃ e, v.find x = some e := by
  obtain ⟨t1, cs1, la, h1, h2, -⟩ := escan_after hs h ho so o gap bs n time hbs
  rw [hok] at h1
  cases h1
  rcases h2.only x hin with ⟨h3, e, he⟩ | h3
  · exact ⟨h3, e, he⟩
  · exact absurd h3 hnew

end

/-! ## `Sync` -/

/-- **C64** with any server, even one that changes its mind or lies: a `Sync` that looks at the unspent outputs (as it does without
flags) gets as far as applying an update only if the server delivers the transaction of every unspent output of the wallet -/
theorem C64_sync_needs_delivery {t : Tracker K D TxHeight T} {s : Electrum.Server} {get : Txid → Option T} {ho : Electrum.Order}
    {so so' : SpendOrder} {o : Orders TxHeight T} {f : Flags} {bs n time : Nat} {x}
    (h : electrumSync s get ho so so' o t f bs n time = .ok x) (hu : f.resolve.utxos = true) :
    ∀ e ∈ t.fullUtxos so, ∃ τ tx, s.tx τ e.2.outpoint.txid = .ok tx := electrumSync_delivered h hu

/-- **C64** with an honest server `Sync` succeeds iff the server knows the transactions of all outputs the wallet shows as unspent, or
is not asked for them; then the wallet's tip is the server's, all its blocks are in the best chain, and what it has as confirmed
is confirmed there, at that height -/
theorem C64_sync_succeeds_iff {t : Tracker K D TxHeight T} {s : Electrum.Server} {get : Txid → Option T} {w : Electrum.World}
    {v : View TxHeight T} (hs : ShowsView s get w v) (h : Ready t v) (ho : Electrum.Order) (so so' : SpendOrder) (o : Orders TxHeight T)
    (f : Flags) (bs n time : Nat) (hbs : 0 < bs) (hlen : ∀ l, syncSpks t f.resolve = some l → l.length ≤ u64Max) :
    ((∃ x, electrumSync s get ho so so' o t f bs (n + 1) time = .ok x) ↔ (f.resolve.utxos = true → UtxosKnown t so v)) ∧
    ∀ x, electrumSync s get ho so so' o t f bs (n + 1) time = .ok x → ∃ t' cs, x = (t', .ok cs) ∧ Ready t' v ∧
      (t.chainGraph.chain.checkpointLimit ≠ some 0 → t'.chainGraph.chain.latestCheckpoint = some v.tip) ∧
      (∀ k b, t'.chainGraph.chain.checkpointAt k = some b → v.header k = some b.hash) ∧
      ∀ x k, t'.chainGraph.chain.txPosition x = some (.confirmed k) → ∃ y, v.find x = some (y, .confirmed k) := by
  have hk : ∀ x, electrumSync s get ho so so' o t f bs (n + 1) time = .ok x → f.resolve.utxos = true → UtxosKnown t so v :=
    fun x hx hu => known_of_sync hs hx hu
  refine ⟨⟨fun ⟨x, hx⟩ => hk x hx, fun hkn => ?_⟩, fun x hx => ?_⟩
  · obtain ⟨t', cs, h1, -⟩ := esync_after hs h ho so so' o f bs n time hbs hlen hkn
    exact ⟨_, h1⟩
  · obtain ⟨t', cs, h1, h2⟩ := esync_after hs h ho so so' o f bs n time hbs hlen (hk x hx)
    rw [hx] at h1
    cases h1
    exact ⟨t', cs, rfl, h2.ready, h2.tip, h2.headers, fun x k hp => h2.confirmed x _ k hp rfl⟩

section
variable {t : Tracker K D TxHeight T} {s : Electrum.Server} {get : Txid → Option T} {w : Electrum.World} {v : View TxHeight T}
  (hs : ShowsView s get w v) (h : Ready t v) (ho : Electrum.Order) (so so' : SpendOrder) (o : Orders TxHeight T) (f : Flags)
  (bs n time : Nat) (hbs : 0 < bs) (hlen : ∀ l, syncSpks t f.resolve = some l → l.length ≤ u64Max)
  {t' : Tracker K D TxHeight T} {cs : KeychainChangeSet K TxHeight T}
  (hok : electrumSync s get ho so so' o t f bs (n + 1) time = .ok (t', .ok cs))
include hs h hbs hlen hok

/-- **C64** after `Sync` (but for flags that leave the unconfirmed ones out) every transaction that was unconfirmed in the wallet and is
known to the server is at the server's height -/
theorem C64_sync_unconfirmed (hu : f.resolve.unconfirmed = true) {x : Txid} (hun : IsUnconfirmed t.chainGraph.chain x)
    {e : T × TxHeight} (he : v.find x = some e) : t'.chainGraph.chain.txPosition x = some e.2 := by
  obtain ⟨t1, cs1, h1, h2⟩ := esync_after hs h ho so so' o f bs n time hbs hlen (known_of_sync hs hok)
  rw [hok] at h1
  cases h1
  exact (h2.found _ _ he (.inr (.inl ⟨hu, hun, e, he⟩))).1

/-- **C64** after `Sync` an output that the wallet showed as unspent is at the server's height, and is still shown iff nothing in the
world spends it and no transaction of the wallet that is unknown to the server spends it -/
theorem C64_sync_utxos (hu : f.resolve.utxos = true) {k : K} {i : Nat} {g : FullTxOut TxHeight} (hg : ((k, i), g) ∈ t.fullUtxos so)
    {x : TxOut} {p : TxHeight} (hout : OutputIn v.find g.outpoint x p) (so2 : SpendOrder) :
    ((∃ g', ((k, i), g') ∈ t'.fullUtxos so2 ∧ g'.outpoint = g.outpoint) ↔
      (¬ ∃ y, SpentIn v.find g.outpoint y) ∧
      ¬ ∃ z y, InChain t'.chainGraph.chain z ∧ v.find z = none ∧ t'.chainGraph.graph.getTx z = some y ∧
        g.outpoint ∈ (asTx y).input ∧ g.outpoint.isNull = false) ∧
    ∀ k' i' g', ((k', i'), g') ∈ t'.fullUtxos so2 → g'.outpoint = g.outpoint → k' = k ∧ i' = i ∧ g'.txout = x ∧ g'.chainPosition = p := by
  obtain ⟨t1, cs1, h1, h2⟩ := esync_after hs h ho so so' o f bs n time hbs hlen (known_of_sync hs hok)
  rw [hok] at h1
  cases h1
  obtain ⟨⟨x0, hx0⟩, ⟨y0, hy0, -⟩, -⟩ := ((C39_full_utxos t h.reachable so).1 k i g).1 hg
  have hcg := (tracker_parts h.reachable).2
  have hin : t.chainGraph.graph.getTx g.outpoint.txid ≠ none := by
    cases hp : t.chainGraph.chain.txPosition g.outpoint.txid with
    | none => rw [(C24_get_tx_in_chain _ hcg _).1 hp] at hy0; cases hy0
    | some q =>
      obtain ⟨z, -, hz, -⟩ := (C24_get_tx_in_chain _ hcg _).2 q hp
      rw [hz]; simp
  have hix := h2.indexKept g.outpoint hin
  rw [hx0] at hix
  exact utxo_iff h2 hs.sound so2 hout (.inr (.inr ⟨hu, _, hg, .inl rfl⟩)) (fun z hz => .inr (.inr ⟨hu, _, hg, .inr hz⟩)) hix

/-- **C64** after `Sync` an output of the world that pays a script that was asked for is shown as unspent iff nothing in the world
spends it and no transaction of the wallet that is unknown to the server spends it -/
theorem C64_sync_shows_money {k : K} {i : Nat} {x : TxOut} (ha : SyncAsked t f.resolve k i x.spk) {op : OutPoint}
    {p : TxHeight} (hout : OutputIn v.find op x p)
    (hnew : t.chainGraph.graph.getTx op.txid = none ∨ t.txoutIndex.inner.txout op = some (toLex (k, i), x)) (so2 : SpendOrder) :
    ((∃ g, ((k, i), g) ∈ t'.fullUtxos so2 ∧ g.outpoint = op) ↔
      (¬ ∃ y, SpentIn v.find op y) ∧
      ¬ ∃ z y, InChain t'.chainGraph.chain z ∧ v.find z = none ∧ t'.chainGraph.graph.getTx z = some y ∧ op ∈ (asTx y).input ∧
        op.isNull = false) ∧
    ∀ k' i' g, ((k', i'), g) ∈ t'.fullUtxos so2 → g.outpoint = op → k' = k ∧ i' = i ∧ g.txout = x ∧ g.chainPosition = p := by
  obtain ⟨t1, cs1, h1, h2⟩ := esync_after hs h ho so so' o f bs n time hbs hlen (known_of_sync hs hok)
  rw [hok] at h1
  cases h1
  obtain ⟨y, hy, hyo⟩ := id hout
  obtain ⟨raw, hraw⟩ := hs.mirrors.pays _ _ _ hy (List.mem_of_getElem? hyo)
  have hix := h2.indexed op x p k i hout (.inl ⟨k, i, _, raw, ha, hraw⟩) (.inl ha.1) hnew
  refine utxo_iff h2 hs.sound so2 hout (.inl ⟨k, i, _, raw, ha, hraw⟩) ?_ hix
  rintro z ⟨e, he, hin, hn⟩
  obtain ⟨raw', hraw'⟩ := hs.mirrors.spends _ _ _ _ _ he hin hn hy hyo
  exact .inl ⟨k, i, _, raw', ha, hraw'⟩

/-- **C64** once all blocks of the wallet are in the best chain, `Sync` settles everything: every transaction of the wallet that the
server knows is at the server's height -/
theorem C64_sync_settles (hy : Synced t v) (hu : f.resolve.unconfirmed = true) {x : Txid}
    (hin : InChain t'.chainGraph.chain x) {e : T × TxHeight} (he : v.find x = some e) :
    t'.chainGraph.chain.txPosition x = some e.2 := by
  obtain ⟨t1, cs1, h1, h2⟩ := esync_after hs h ho so so' o f bs n time hbs hlen (known_of_sync hs hok)
  rw [hok] at h1
  cases h1
  by_cases hS : SyncFound t w v so f.resolve x
  · exact (h2.found x _ he hS).1
  · rcases h2.only x hin with ⟨h3, -⟩ | h3
    · exact absurd h3 hS
    · obtain ⟨p, hp⟩ := Option.ne_none_iff_exists'.1 h3
      cases hk : ChainPosition.height p with
      | unconfirmed => exact absurd (.inr (.inl ⟨hu, ⟨p, hp, hk⟩, e, he⟩)) hS
      | confirmed k =>
        obtain ⟨y, hy'⟩ := h.truthful x p k hp hk fun a b _ hb => hy.headers a b hb
        rw [he] at hy'
        cases hy'
        exact h2.same hy.headers x _ _ he hS hp

/-- **C64** a transaction of the wallet that the server does not know (dropped from the mempool, or its block has left the best chain)
goes away exactly if it is overruled: `Sync` brought a transaction that conflicts with it or with an ancestor of it.  Otherwise it stays,
as unconfirmed -/
theorem C64_sync_unknown {x : Txid} (hun : v.find x = none)
    (hin : InChain t.chainGraph.chain x) :
    (InChain t'.chainGraph.chain x ↔ ¬ Overruled t t' x) ∧ (InChain t'.chainGraph.chain x → IsUnconfirmed t'.chainGraph.chain x ∧
      (IsUnconfirmed t.chainGraph.chain x → t'.chainGraph.chain.txPosition x = t.chainGraph.chain.txPosition x)) := by
  obtain ⟨t1, cs1, h1, h2⟩ := esync_after hs h ho so so' o f bs n time hbs hlen (known_of_sync hs hok)
  rw [hok] at h1
  cases h1
  exact h2.fate hun hin

/-- **C64** money that the wallet shows and the server does not know (and nothing the server knows spends) is still shown after `Sync`, unless
its transaction is overruled -/
theorem C64_sync_unknown_money (so2 : SpendOrder) {k : K} {i : Nat} {g : FullTxOut TxHeight} (hg : ((k, i), g) ∈ t.fullUtxos so)
    (hun : v.find g.outpoint.txid = none) (hns : ¬ ∃ y, SpentIn v.find g.outpoint y) :
    (∃ g', ((k, i), g') ∈ t'.fullUtxos so2 ∧ g'.outpoint = g.outpoint ∧ g'.txout = g.txout) ↔ ¬ Overruled t t' g.outpoint.txid := by
  obtain ⟨t1, cs1, h1, h2⟩ := esync_after hs h ho so so' o f bs n time hbs hlen (known_of_sync hs hok)
  rw [hok] at h1
  cases h1
  exact h2.unknown_money h.reachable hs.sound so so2 hg hun hns

/-- **C64** `Sync` adds nothing else: a new transaction is in the history of a script that was asked for, or spends an output of the
wallet -/
theorem C64_sync_adds_only {x : Txid} (hin : InChain t'.chainGraph.chain x) (hnew : ¬ InChain t.chainGraph.chain x) :
    ((∃ k i spk raw, SyncAsked t f.resolve k i spk ∧ (x, raw) ∈ w.history spk) ∨
      (f.resolve.utxos = true ∧ ∃ e ∈ t.fullUtxos so, SpentIn v.find e.2.outpoint x)) ∧ ∃ e, v.find x = some e := by
  obtain ⟨t1, cs1, h1, h2⟩ := esync_after hs h ho so so' o f bs n time hbs hlen (known_of_sync hs hok)
  rw [hok] at h1
  cases h1
  rcases h2.only x hin with ⟨h3, e, he⟩ | h3
  · refine ⟨?_, e, he⟩
    rcases h3 with h4 | ⟨-, ⟨p, hp, -⟩, -⟩ | ⟨hu, e1, he1, rfl | h4⟩
    · exact .inl h4
    · exact absurd (by unfold InChain; rw [hp]; simp) hnew
    · exact absurd (utxo_inChain h.reachable he1) hnew
    · exact .inr ⟨hu, e1, he1, h4⟩
  · exact absurd h3 hnew

end

/-- **C64** a transaction that the server does not know locks `Sync` out as long as the wallet shows its output, and `Scan` does not help:
unless it finds a conflicting transaction, `Sync` goes on failing afterwards, whatever the flags (with unspent outputs), the batch
size, the iteration orders and the number of rounds -/
theorem C64_scan_does_not_unblock {t : Tracker K D TxHeight T} {s : Electrum.Server} {get : Txid → Option T} {w : Electrum.World}
    {v : View TxHeight T} (hs : ShowsView s get w v) (h : Ready t v) (ho : Electrum.Order) (so so1 : SpendOrder) (o : Orders TxHeight T)
    (gap bs n time : Nat) (hbs : 0 < bs) {t' : Tracker K D TxHeight T} {cs : KeychainChangeSet K TxHeight T}
    (hok : electrumScan s get ho so o t gap bs (n + 1) time = .ok (t', .ok cs)) {e : (K × Nat) × FullTxOut TxHeight}
    (hg : e ∈ t.fullUtxos so1) (hun : v.find e.2.outpoint.txid = none) (hns : ¬ ∃ y, SpentIn v.find e.2.outpoint y) :
    (∀ ho so2 so' o f bs n time x, f.resolve.utxos = true → electrumSync s get ho so2 so' o t f bs n time ≠ .ok x) ∧
    (¬ Overruled t t' e.2.outpoint.txid →
      ∀ ho so2 so' o f bs n time x, f.resolve.utxos = true → electrumSync s get ho so2 so' o t' f bs n time ≠ .ok x) := by
  have main : ∀ (t : Tracker K D TxHeight T) (so2 : SpendOrder) (e : (K × Nat) × FullTxOut TxHeight), e ∈ t.fullUtxos so2 →
      v.find e.2.outpoint.txid = none → ∀ ho so' o f bs n time x, f.resolve.utxos = true →
      electrumSync s get ho so2 so' o t f bs n time ≠ .ok x := by
    intro t so2 e he hun ho so' o f bs n time x hu hx
    obtain ⟨e', he'⟩ := known_of_sync hs hx hu e he
    rw [hun] at he'
    cases he'
  obtain ⟨⟨k, i⟩, g⟩ := e
  refine ⟨?_, ?_⟩
  · intro ho so2
    refine main t so2 ((k, i), g) ?_ hun ho
    rw [(C39_full_utxos t h.reachable so2).1 k i g]
    exact ((C39_full_utxos t h.reachable so1).1 k i g).1 hg
  · intro hno ho2 so2
    obtain ⟨g', h1, h2, -⟩ := (C64_scan_unknown_money hs h ho so o gap bs n time hbs hok so1 so2 hg hun hns).2 hno
    exact main t' so2 ((k, i), g') h1 (by rw [← hun]; exact congrArg (fun op : OutPoint => v.find op.txid) h2) ho2

/-- **C64** two `Sync`s settle everything, whatever blocks had left the best chain before -/
theorem C64_two_syncs {t : Tracker K D TxHeight T} {s : Electrum.Server} {get : Txid → Option T} {w : Electrum.World} {v : View TxHeight T}
    (hs : ShowsView s get w v) (h : Ready t v) (ho1 ho2 : Electrum.Order) (so1 so1' so2 so2' : SpendOrder) (o1 o2 : Orders TxHeight T)
    (f1 f2 : Flags) (bs n time1 time2 : Nat) (hbs : 0 < bs)
    (hlen1 : ∀ l, syncSpks t f1.resolve = some l → l.length ≤ u64Max) {t1 t2 : Tracker K D TxHeight T}
    (hlen2 : ∀ l, syncSpks t1 f2.resolve = some l → l.length ≤ u64Max) {cs1 cs2 : KeychainChangeSet K TxHeight T}
    (hok1 : electrumSync s get ho1 so1 so1' o1 t f1 bs (n + 1) time1 = .ok (t1, .ok cs1))
    (hok2 : electrumSync s get ho2 so2 so2' o2 t1 f2 bs (n + 1) time2 = .ok (t2, .ok cs2)) (hu : f2.resolve.unconfirmed = true) {x : Txid}
    (hin : InChain t2.chainGraph.chain x) {e : T × TxHeight} (he : v.find x = some e) :
    t2.chainGraph.chain.txPosition x = some e.2 := by
  obtain ⟨t0, cs0, h1, h2⟩ := esync_after hs h ho1 so1 so1' o1 f1 bs n time1 hbs hlen1 (known_of_sync hs hok1)
  rw [hok1] at h1
  cases h1
  exact C64_sync_settles hs h2.ready ho2 so2 so2' o2 f2 bs n time2 hbs hlen2 hok2 h2.synced hu hin he

/-! ## over time -/

/-- **C64** a wallet that lives with honest servers always has all its blocks in the chain of its last command, and everything it has as
confirmed was confirmed there, at that height -/
theorem C64_life_truth {t : Tracker K D TxHeight T} {v : View TxHeight T} (h : ELife t v) :
    v.Sound ∧ Synced t v ∧
    ∀ x k, t.chainGraph.chain.txPosition x = some (.confirmed k) → ∃ y, v.find x = some (y, .confirmed k) := by
  have main : v.Sound ∧ Synced t v := by
    induction h with
    | new hr hd hn hroom hc ht hv =>
      refine ⟨hv, ⟨hr, hd, hn, hroom, ⟨?_, ?_⟩, ?_, ?_, ?_⟩, ?_⟩
      · rintro k ⟨b, hb⟩; rw [hc] at hb; cases hb
      · intro x p k hp; rw [ht] at hp; cases hp
      · rintro k ⟨b, hb⟩; rw [hc] at hb; cases hb
      · intro a b x y _ hx; rw [hc] at hx; cases hx
      · intro x p k hp; rw [ht] at hp; cases hp
      · intro k b hb; rw [hc] at hb; cases hb
    | owner op r _ hl hr ih => exact ⟨ih.1, ih.2.local hl hr⟩
    | scan s get w v' ho so o gap bs n time t' r _ hs hlat hbs hok ih =>
      have hready := ih.2.moves ih.1 hlat.kin hlat.below hlat.covered
      obtain ⟨t1, cs1, la, h1, h2, -⟩ := escan_after hs hready ho so o gap bs n time hbs
      rw [hok] at h1
      cases h1
      exact ⟨hs.sound, h2.synced⟩
    | sync s get w v' ho so so' o f bs n time t' r _ hs hlat hbs hlen hok ih =>
      have hready := ih.2.moves ih.1 hlat.kin hlat.below hlat.covered
      obtain ⟨t1, cs1, h1, h2⟩ := esync_after hs hready ho so so' o f bs n time hbs hlen (known_of_sync hs hok)
      rw [hok] at h1
      cases h1
      exact ⟨hs.sound, h2.synced⟩
  exact ⟨main.1, main.2, fun x k hp => main.2.ready.truthful x _ k hp rfl fun a b _ hb => main.2.headers a b hb⟩

/-- **C64** in such a life `Scan` always succeeds, and `Sync` iff the server knows the transactions of the unspent outputs it is asked
for -/
theorem C64_life_commands_succeed {t : Tracker K D TxHeight T} {v v' : View TxHeight T} (h : ELife t v) {s : Electrum.Server}
    {get : Txid → Option T} {w : Electrum.World} (hs : ShowsView s get w v') (hl : Follows t v v') (ho : Electrum.Order) (so : SpendOrder)
    (o : Orders TxHeight T) (bs n time : Nat) (hbs : 0 < bs) :
    (∀ gap, ∃ t' cs, electrumScan s get ho so o t gap bs (n + 1) time = .ok (t', .ok cs)) ∧
    ∀ so' f, (∀ l, syncSpks t f.resolve = some l → l.length ≤ u64Max) →
      ((∃ t' cs, electrumSync s get ho so so' o t f bs (n + 1) time = .ok (t', .ok cs)) ↔
        (f.resolve.utxos = true → UtxosKnown t so v')) := by
  obtain ⟨hv, hsy, -⟩ := C64_life_truth h
  have hready := hsy.moves hv hl.kin hl.below hl.covered
  constructor
  · intro gap
    obtain ⟨t1, cs1, la, h1, -⟩ := escan_after hs hready ho so o gap bs n time hbs
    exact ⟨t1, cs1, h1⟩
  · intro so' f hlen
    obtain ⟨h1, h2⟩ := C64_sync_succeeds_iff hs hready ho so so' o f bs n time hbs hlen
    rw [← h1]
    constructor
    · rintro ⟨t', cs, hx⟩; exact ⟨_, hx⟩
    · rintro ⟨x, hx⟩
      obtain ⟨t', cs, rfl, -⟩ := h2 x hx
      exact ⟨t', cs, hx⟩

/-- **C64** while the chain only grows, the conditions of a later moment hold by themselves -/
theorem C64_growing_chain {t : Tracker K D TxHeight T} {v v' : View TxHeight T} (h : ELife t v) (hv' : v'.Sound) (hk : Kin v v')
    (hg : v'.header v.tip.height = some v.tip.hash) : Follows t v v' := by
  obtain ⟨hv, hsy, -⟩ := C64_life_truth h
  refine ⟨hk, fun k hc => ?_, covered_of_tip hsy hv hk hg⟩
  exact le_trans (hsy.ready.below k hc) ((hv'.headers _).1 ⟨_, hg⟩)

end Verif.Sync
