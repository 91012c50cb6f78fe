import Verif.Lemmas.Devices

/-!
# Property C77: two devices that hold the same wallet and exchange their states agree

`a` takes the state of `b` as an update and becomes `a'`; `b` then takes the state of `a'` and becomes `b'`.
-/

set_option linter.unusedSectionVars false

namespace Verif.Props
open Verif Verif.Spec Verif.Devices

section
variable {K D P T : Type} [LinearOrder K] [DescriptorOps D] [DecidableEq D] [LinearOrder P] [ChainPosition P]
  [LawfulChainPosition P] [AsTransaction T] [LawfulTx T] [LinearOrder T]

/-- **C77** a script that has received an output is revealed, whatever calls were made -/
theorem C77_recorded_revealed {s : KeychainIndex K D} (h : KeychainIndex.Reachable s) (hd : AllDerivable s) (o : OutPoint) (k : K)
    (i : Nat) (x : TxOut) (hx : s.inner.txout o = some (toLex (k, i), x)) : ∃ j, s.lastRevealedIndex k = some j ∧ i ≤ j := by
  have := recorded_of_reachable h hd o k i x hx
  unfold numRevealed at this
  cases hl : s.lastRevealedIndex k with
  | none => rw [hl] at this; simp at this
  | some j => rw [hl] at this; simp only at this; exact ⟨j, rfl, by omega⟩

/-- the indices a wallet tells are indices of its keychains -/
theorem shared_active {b : Tracker K D P T} (hb : Working b) {k : K} {i : Nat} (h : (shared b).lastActiveIndices.get k = some i) :
    ∃ d, b.txoutIndex.keychains.get k = some d ∧ i ≤ cap d := by
  have hi := (fit hb).inv
  have h' : b.txoutIndex.lastRevealed.get k = some i := h
  cases hk : b.txoutIndex.keychains.get k with
  | none => rw [(hi.absent k hk).2.1] at h'; cases h'
  | some d =>
    refine ⟨d, rfl, ?_⟩
    unfold cap
    split
    · exact hb.range k i h'
    · next hw => rw [hi.nw k d i hk (by simpa using hw) h']

/-- whatever the other device has recorded is within what it has revealed -/
theorem shared_known {a b : Tracker K D P T} (hb : Working b) (heb : ExactRecords b)
    (hkc : a.txoutIndex.keychains = b.txoutIndex.keychains) {op : OutPoint} {out : TxOut} {k : K} {i : Nat}
    (h1 : b.chainGraph.graph.getTxout op = some out) (h2 : ScriptOf a.txoutIndex k i out.spk) :
    ∃ j, (shared b).lastActiveIndices.get k = some j ∧ i ≤ j :=
  C77_recorded_revealed (tracker_parts hb.reachable).1 hb.derivable op k i out ((heb op k i out).2 ⟨h1, by
    unfold ScriptOf at h2 ⊢; rw [← hkc]; exact h2⟩)

/-- **C77** a wallet with exact records keeps them exact through an update, provided the update tells how far its scripts go: each
output it brings to a script of the wallet's keychains is at a derived script, or at or below the last active index told for it -/
theorem C77_update_exact {t t' : Tracker K D P T} (hw : Working t) (he : ExactRecords t) {sc : KeychainScan K P T}
    (hu : sc.update.Reachable) (hh : HeightsOk sc.update.chain)
    (hla : ∀ k i, sc.lastActiveIndices.get k = some i → ∃ d, t.txoutIndex.keychains.get k = some d ∧ i ≤ cap d)
    {f : OutPoint → Option TxOut} (hf : TrueOutputs f t.chainGraph.graph) (hfu : TrueOutputs f sc.update.graph)
    (hk : ∀ op out k i, sc.update.graph.getTxout op = some out → t.chainGraph.graph.getTxout op = none →
      ScriptOf t.txoutIndex k i out.spk →
      stored t.txoutIndex k i = some out.spk ∨ ∃ j, sc.lastActiveIndices.get k = some j ∧ i ≤ j)
    {o : Orders P T} {cs} (h : t.applyUpdate sc o = some (t', .ok cs)) :
    Working t' ∧ ExactRecords t' ∧ TrueOutputs f t'.chainGraph.graph := by
  refine ⟨(taken hw hu hh hla h).working, exact_update hw he hu hla hf hfu hk h, ?_⟩
  rw [update_graph hw hu h]
  exact merged_true (ChainGraph.reachable_inv hu).wf.keys hf hfu

/-- what `a` is after it took in the state of `b` -/
theorem took_shared {a b a' : Tracker K D P T} (ha : Working a) (hb : Working b) (hea : ExactRecords a) (heb : ExactRecords b)
    (hkc : a.txoutIndex.keychains = b.txoutIndex.keychains) {f : OutPoint → Option TxOut} (hfa : TrueOutputs f a.chainGraph.graph)
    (hfb : TrueOutputs f b.chainGraph.graph) {o : Orders P T} {cs} (h : a.applyUpdate (shared b) o = some (a', .ok cs)) :
    Working a' ∧ ExactRecords a' ∧ TrueOutputs f a'.chainGraph.graph ∧ a'.txoutIndex.keychains = b.txoutIndex.keychains ∧
    (∀ k, numRevealed a'.txoutIndex k = max (numRevealed a.txoutIndex k) (numRevealed b.txoutIndex k)) ∧
    (∀ op, a'.chainGraph.graph.getTxout op = (a.chainGraph.graph.getTxout op).or (b.chainGraph.graph.getTxout op)) := by
  have hcgb := (tracker_parts hb.reachable).2
  have hla : ∀ k i, (shared b).lastActiveIndices.get k = some i → ∃ d, a.txoutIndex.keychains.get k = some d ∧ i ≤ cap d := by
    intro k i hki; rw [hkc]; exact shared_active hb hki
  have ht := taken ha (sc := shared b) hcgb hb.heights hla h
  obtain ⟨h1, h2, h3⟩ := C77_update_exact ha hea (sc := shared b) hcgb hb.heights hla hfa hfb
    (fun op out k i g1 _ g3 => .inr (shared_known hb heb hkc g1 g3)) h
  refine ⟨h1, h2, h3, ht.kc.trans hkc, fun k => ?_, fun op => ?_⟩
  · apply le_antisymm
    · refine ht.bound k _ (le_max_left _ _) (fun i hi => ?_) (fun op out i g1 g2 => ?_)
      · refine lt_of_lt_of_le ?_ (le_max_right _ _)
        exact numRevealed_le.1 (le_refl _) i hi
      · refine lt_of_lt_of_le ?_ (le_max_right _ _)
        obtain ⟨j, hj, hij⟩ := shared_known hb heb hkc g1 g2
        have : j < numRevealed b.txoutIndex k := numRevealed_le.1 (le_refl _) j hj
        omega
    · refine max_le (ht.mono k) (numRevealed_le.2 fun i hi => ?_)
      exact ht.active k i hi
  · rw [update_graph ha (sc := shared b) hcgb h]
    exact merged_outputs (ChainGraph.reachable_inv hcgb).wf.keys hfa hfb op

theorem revealed_eq {s s' : KeychainIndex K D} {k : K} (h : numRevealed s k = numRevealed s' k) :
    s.lastRevealedIndex k = s'.lastRevealedIndex k := by
  unfold numRevealed at h
  cases h1 : s.lastRevealedIndex k <;> cases h2 : s'.lastRevealedIndex k <;> rw [h1, h2] at h <;> simp at h <;> try rfl
  rw [h]

/-- records that are exact over the same outputs and keychains are the same -/
theorem same_records {a b : Tracker K D P T} (hea : ExactRecords a) (heb : ExactRecords b)
    (hkc : a.txoutIndex.keychains = b.txoutIndex.keychains)
    (hg : ∀ op, a.chainGraph.graph.getTxout op = b.chainGraph.graph.getTxout op) : a.txoutIndex.inner.txouts = b.txoutIndex.inner.txouts := by
  apply OMap.ext_get
  intro op
  have key : ∀ k i out, a.txoutIndex.inner.txouts.get op = some (toLex (k, i), out) ↔
      b.txoutIndex.inner.txouts.get op = some (toLex (k, i), out) := by
    intro k i out
    have e1 := hea op k i out
    have e2 := heb op k i out
    unfold ScriptOf at e1 e2
    rw [hkc, hg] at e1
    exact e1.trans e2.symm
  cases h1 : a.txoutIndex.inner.txouts.get op with
  | some e => exact ((key (ofLex e.1).1 (ofLex e.1).2 e.2).1 h1).symm
  | none =>
    cases h2 : b.txoutIndex.inner.txouts.get op with
    | none => rfl
    | some e => rw [(key (ofLex e.1).1 (ofLex e.1).2 e.2).2 h2] at h1; cases h1

/-- **C77** the only thing that can go wrong is that the chains do not fit: if `a`'s chain accepts `b`'s, the wallet accepts -/
theorem C77_accepts {a b : Tracker K D P T} (ha : Working a) (hb : Working b)
    (hkc : a.txoutIndex.keychains = b.txoutIndex.keychains) (o : Orders P T) {cs0}
    (h : (a.chainGraph.applyUpdate b.chainGraph o).2 = .ok cs0) : ∃ a' cs, a.applyUpdate (shared b) o = some (a', .ok cs) :=
  Sync.applyUpdate_ok (fit ha) (shared b) o (fun k i hki => by rw [hkc]; exact shared_active hb hki) h

/-- **C77** once `a` has taken the state of `b`, `b` accepts the answer.  Afterwards both devices have revealed the same scripts (as
many as the one that had revealed more), and have recorded the same outputs: exactly those either had seen that pay a script of the
wallet.  Their lookaheads may differ. -/
theorem C77_exchange {a b a' : Tracker K D P T} (ha : Working a) (hb : Working b) (hea : ExactRecords a) (heb : ExactRecords b)
    (hkc : a.txoutIndex.keychains = b.txoutIndex.keychains) {f : OutPoint → Option TxOut} (hfa : TrueOutputs f a.chainGraph.graph)
    (hfb : TrueOutputs f b.chainGraph.graph) {o : Orders P T} {cs} (h : a.applyUpdate (shared b) o = some (a', .ok cs))
    (o' : Orders P T) :
    ∃ b' cs', b.applyUpdate (shared a') o' = some (b', .ok cs') ∧
      (Working a' ∧ ExactRecords a') ∧ (Working b' ∧ ExactRecords b') ∧
      (∀ k, b'.txoutIndex.lastRevealedIndex k = a'.txoutIndex.lastRevealedIndex k) ∧
      (∀ k, numRevealed a'.txoutIndex k = max (numRevealed a.txoutIndex k) (numRevealed b.txoutIndex k)) ∧
      b'.txoutIndex.inner.allTxouts = a'.txoutIndex.inner.allTxouts ∧
      (∀ op k i out, a'.txoutIndex.inner.txout op = some (toLex (k, i), out) ↔
        a.txoutIndex.inner.txout op = some (toLex (k, i), out) ∨ b.txoutIndex.inner.txout op = some (toLex (k, i), out)) := by
  obtain ⟨a1, a2, a3, a4, a5, a6⟩ := took_shared ha hb hea heb hkc hfa hfb h
  have hcga := (tracker_parts ha.reachable).2
  have hcgb := (tracker_parts hb.reachable).2
  have hs := Sync.applyUpdate_parts h
  have hca : a.chainGraph.applyUpdate b.chainGraph o = (a'.chainGraph, .ok cs.chainGraph) := by
    rw [hs.chain, ← hs.ok]; rfl
  obtain ⟨cb, cs', g1, -⟩ := C74_answer_accepted a.chainGraph b.chainGraph a'.chainGraph o o' cs.chainGraph hcga hcgb ha.heights
    hb.heights ha.unlimited hb.unlimited hca
  obtain ⟨b', csb, hb'⟩ := C77_accepts hb a1 a4.symm o' (cs0 := cs') (by rw [g1])
  obtain ⟨b1, b2, b3, b4, b5, b6⟩ := took_shared hb a1 heb a2 a4.symm hfb a3 hb'
  refine ⟨b', csb, hb', ⟨a1, a2⟩, ⟨b1, b2⟩, fun k => revealed_eq ?_, a5, ?_, ?_⟩
  · rw [b5, a5, max_comm (numRevealed a.txoutIndex k), ← max_assoc, max_self]
  · unfold SpkIndex.allTxouts
    rw [same_records b2 a2 b4 (fun op => ?_)]
    rw [b6, a6]
    cases hx : b.chainGraph.graph.getTxout op with
    | none => rfl
    | some x =>
      cases hy : a.chainGraph.graph.getTxout op with
      | none => rfl
      | some y =>
        have := hfa.1 op y hy
        rw [hfb.1 op x hx] at this
        rw [Option.some.inj this]; rfl
  · intro op k i out
    have hsa : ScriptOf a.txoutIndex k i out.spk ↔ ScriptOf b.txoutIndex k i out.spk := by unfold ScriptOf; rw [hkc]
    have hsa' : ScriptOf a'.txoutIndex k i out.spk ↔ ScriptOf b.txoutIndex k i out.spk := by unfold ScriptOf; rw [a4]
    rw [a2, hea, heb, a6, hsa, hsa', ← or_and_right]
    refine and_congr_left fun _ => ?_
    constructor
    · intro hx
      rcases Option.or_eq_some_iff.1 hx with hx | ⟨-, hx⟩
      · exact .inl hx
      · exact .inr hx
    · rintro (hx | hx)
      · rw [hx]; rfl
      · cases hy : a.chainGraph.graph.getTxout op with
        | none => rw [hx]; rfl
        | some y =>
          have := hfa.1 op y hy
          rw [hfb.1 op _ hx] at this
          rw [Option.some.inj this]; rfl

/-- wallets with the same records and the same chain graph report the same -/
theorem same_reports {a b : Tracker K D P T} (h1 : b.txoutIndex.inner.allTxouts = a.txoutIndex.inner.allTxouts)
    (h2 : b.chainGraph = a.chainGraph) :
    (∀ so, b.fullTxouts so = a.fullTxouts so) ∧ (∀ so, b.fullUtxos so = a.fullUtxos so) ∧
    (∀ so trust, b.balance so trust = a.balance so trust) ∧ ∀ so height, b.balanceAt so height = a.balanceAt so height := by
  have e1 : ∀ so, b.fullTxouts so = a.fullTxouts so := fun so => by unfold Tracker.fullTxouts; rw [h1, h2]
  have e2 : ∀ so, b.fullUtxos so = a.fullUtxos so := fun so => by unfold Tracker.fullUtxos; rw [e1]
  exact ⟨e1, e2, fun so trust => by unfold Tracker.balance; rw [e2, h2], fun so height => by unfold Tracker.balanceAt; rw [e1]⟩

/-- **C77** if besides they have the same versions of the transactions both have, and `b` has those of their parents that `a` has, both
devices hold the same chain and transactions after one exchange, and report the same outputs, unspent outputs and balances -/
theorem C77_same_wallet {a b a' : Tracker K D P T} (ha : Working a) (hb : Working b) (hea : ExactRecords a) (heb : ExactRecords b)
    (hkc : a.txoutIndex.keychains = b.txoutIndex.keychains) {f : OutPoint → Option TxOut} (hfa : TrueOutputs f a.chainGraph.graph)
    (hfb : TrueOutputs f b.chainGraph.graph) (hps : ParentsShared a.chainGraph b.chainGraph)
    (hv : SameVersions a.chainGraph.graph b.chainGraph.graph) {o : Orders P T} {cs}
    (h : a.applyUpdate (shared b) o = some (a', .ok cs)) (o' : Orders P T) :
    ∃ b' cs', b.applyUpdate (shared a') o' = some (b', .ok cs') ∧ b'.chainGraph = a'.chainGraph ∧
      (∀ so, b'.fullTxouts so = a'.fullTxouts so) ∧ (∀ so, b'.fullUtxos so = a'.fullUtxos so) ∧
      (∀ so trust, b'.balance so trust = a'.balance so trust) ∧ ∀ so height, b'.balanceAt so height = a'.balanceAt so height := by
  obtain ⟨b', cs', hb', -, -, -, -, h5, -⟩ := C77_exchange ha hb hea heb hkc hfa hfb h o'
  have hs := Sync.applyUpdate_parts h
  have hs' := Sync.applyUpdate_parts hb'
  obtain ⟨cs2, g⟩ := C74_same_value a.chainGraph b.chainGraph a'.chainGraph o o' cs.chainGraph (tracker_parts ha.reachable).2
    (tracker_parts hb.reachable).2 ha.heights hb.heights ha.unlimited hb.unlimited hps hv (by rw [hs.chain, ← hs.ok]; rfl)
  have hcg : b'.chainGraph = a'.chainGraph := by
    rw [hs'.chain]
    show (b.chainGraph.applyUpdate a'.chainGraph o').1 = _
    rw [g]
  exact ⟨b', cs', hb', hcg, same_reports h5 hcg⟩

/-- **C77** without shared parents a third message settles it: `a'` takes the state of `b'`, and then both devices hold the same chain
and transactions and report the same -/
theorem C77_three {a b a' b' : Tracker K D P T} (ha : Working a) (hb : Working b) (hea : ExactRecords a) (heb : ExactRecords b)
    (hkc : a.txoutIndex.keychains = b.txoutIndex.keychains) {f : OutPoint → Option TxOut} (hfa : TrueOutputs f a.chainGraph.graph)
    (hfb : TrueOutputs f b.chainGraph.graph) (hv : SameVersions a.chainGraph.graph b.chainGraph.graph) {o o' : Orders P T} {cs cs'}
    (h : a.applyUpdate (shared b) o = some (a', .ok cs)) (h' : b.applyUpdate (shared a') o' = some (b', .ok cs')) (o'' : Orders P T) :
    ∃ a'' cs'', a'.applyUpdate (shared b') o'' = some (a'', .ok cs'') ∧ a''.chainGraph = b'.chainGraph ∧
      (∀ k, a''.txoutIndex.lastRevealedIndex k = b'.txoutIndex.lastRevealedIndex k) ∧
      (∀ so, a''.fullTxouts so = b'.fullTxouts so) ∧ (∀ so, a''.fullUtxos so = b'.fullUtxos so) ∧
      (∀ so trust, a''.balance so trust = b'.balance so trust) ∧ ∀ so height, a''.balanceAt so height = b'.balanceAt so height := by
  obtain ⟨a1, a2, a3, a4, a5, a6⟩ := took_shared ha hb hea heb hkc hfa hfb h
  obtain ⟨a'', cs'', ha'', -, -, k3, -, k5, -⟩ := C77_exchange hb a1 heb a2 a4.symm hfb a3 h' o''
  have hs := Sync.applyUpdate_parts h
  have hs' := Sync.applyUpdate_parts h'
  have hs'' := Sync.applyUpdate_parts ha''
  have hcga := (tracker_parts ha.reachable).2
  have hcgb := (tracker_parts hb.reachable).2
  have hcga' := (tracker_parts a1.reachable).2
  have c1 : a.chainGraph.applyUpdate b.chainGraph o = (a'.chainGraph, .ok cs.chainGraph) := by rw [hs.chain, ← hs.ok]; rfl
  have c2 : b.chainGraph.applyUpdate a'.chainGraph o' = (b'.chainGraph, .ok cs'.chainGraph) := by rw [hs'.chain, ← hs'.ok]; rfl
  have c3 : a'.chainGraph.applyUpdate b'.chainGraph o'' = (a''.chainGraph, .ok cs''.chainGraph) := by rw [hs''.chain, ← hs''.ok]; rfl
  obtain ⟨x, y, e1, e2⟩ := C74_agree_after_three a.chainGraph b.chainGraph a'.chainGraph b'.chainGraph o o' o'' cs.chainGraph
    cs'.chainGraph hcga hcgb ha.heights hb.heights ha.unlimited hb.unlimited c1 c2
  rw [c3] at e1
  cases e1
  have hv' : SameVersions b.chainGraph.graph a'.chainGraph.graph := by
    intro k x y hx hy
    rw [(updated ha.reachable ha.derivable (sc := shared b) hcgb h).graph] at hy
    rcases Option.or_eq_some_iff.1 hy with hy | ⟨-, hy⟩
    · exact (hv k y x hy hx).symm
    · have hy' : b.chainGraph.graph.getTx k = some y := hy
      rw [hx] at hy'; exact Option.some.inj hy'
  have hgr := (C74_graphs_agree b.chainGraph a'.chainGraph b'.chainGraph a''.chainGraph o' o'' cs'.chainGraph cs''.chainGraph hcgb hcga'
    hb.heights a1.heights hb.unlimited a1.unlimited c2 c3).2.2 hv'
  have hcg : a''.chainGraph = b'.chainGraph := by
    cases hA : a''.chainGraph; cases hB : b'.chainGraph
    rw [hA, hB] at e2 hgr
    simp only at e2 hgr
    rw [e2, hgr]
  exact ⟨a'', cs'', ha'', hcg, k3, same_reports k5 hcg⟩

/-- the graph after `insert_tx` -/
theorem insertTx_graph {t t' : Tracker K D P T} (ht : t.Reachable) {tx : T} {pos : P} {o : Orders P T}
    {cs} (h : t.insertTx tx pos o = some (t', .ok cs)) : t'.chainGraph.graph = (t.chainGraph.graph.insertTx tx).1 := by
  obtain ⟨-, hcg⟩ := tracker_parts ht
  unfold Tracker.insertTx Tracker.applyOk Tracker.insertTxPreview at h
  cases hp : t.chainGraph.insertTxPreview tx pos o with
  | panic => rw [hp] at h; cases h
  | err e => rw [hp] at h; cases h
  | ok cs' =>
    rw [hp] at h
    rw [Option.map_eq_some_iff] at h
    obtain ⟨t1, h1, h2⟩ := h
    cases h2
    have hg : t'.chainGraph = t.chainGraph.applyChangeset cs' := by
      unfold Tracker.applyChangeset at h1
      simp only [KeychainChangeSet.ofChainGraph, Option.bind_eq_bind] at h1
      obtain ⟨x, -, h1⟩ := Option.bind_eq_some_iff.1 h1
      obtain ⟨y, -, h1⟩ := Option.bind_eq_some_iff.1 h1
      cases h1; rfl
    have hins : t.chainGraph.insertTx tx pos o = (t.chainGraph.applyChangeset cs', .ok cs') := by
      unfold ChainGraph.insertTx ChainGraph.applyOk
      rw [hp]
    have h26 := C26_insert_tx t.chainGraph hcg tx pos o
    simp only [hins] at h26
    cases hc : t.chainGraph.chain.insertTx (asTx tx).txid pos o.chain with
    | mk c r =>
      rw [hc] at h26
      obtain ⟨q1, q2⟩ := h26
      cases r with
      | err e => have := (Prod.ext_iff.1 (q1 e rfl)).2; cases this
      | panic =>
        exfalso
        unfold SparseChain.insertTx SparseChain.applyOk at hc
        unfold ChainGraph.insertTxPreview at hp
        cases hx : t.chainGraph.chain.insertTxPreview (asTx tx).txid pos o.chain with
        | panic => rw [hx] at hp; cases hp
        | err e => rw [hx] at hc; cases hc
        | ok c => rw [hx] at hc; cases hc
      | ok cs0 => rw [hg]; exact ((q2 cs0 rfl).2.1 cs' rfl).1

/-- **C77** `insert_tx` keeps the records exact, provided every output of a new transaction that pays a script of the wallet's keychains
pays one that is derived (revealed or within the lookahead) -/
theorem C77_insert_tx_exact {t t' : Tracker K D P T} (ht : t.Reachable) (hd : AllDerivable t.txoutIndex) (he : ExactRecords t)
    {tx : T} {pos : P} {o : Orders P T} {f : OutPoint → Option TxOut} (hf : TrueOutputs f t.chainGraph.graph)
    (hfx : ∀ op : OutPoint, op.txid = (asTx tx).txid → f op = (asTx tx).output[op.vout.val]?)
    (hk : ∀ out ∈ (asTx tx).output, ∀ k i, ScriptOf t.txoutIndex k i out.spk → stored t.txoutIndex k i = some out.spk)
    {cs} (h : t.insertTx tx pos o = some (t', .ok cs)) : ExactRecords t' ∧ TrueOutputs f t'.chainGraph.graph := by
  obtain ⟨hreach, hcg⟩ := tracker_parts ht
  have hi := KeychainIndex.reachable_inv hreach hd
  obtain ⟨hr', -, hgt, ⟨cs0, hscan⟩, -⟩ := Accounting.insertTx_parts ht hd h
  have hkeys := TxGraph.single_whole_keysOk (T := T) tx
  have hug : ∀ op : OutPoint, (⟨OMap.empty.insert (asTx tx).txid (.whole tx), OMap.empty⟩ : TxGraph T).getTxout op =
      if op.txid = (asTx tx).txid then (asTx tx).output[op.vout.val]? else none := by
    intro op
    by_cases hx : op.txid = (asTx tx).txid
    · rw [TxGraph.getTxout_whole (t := tx) (by rw [TxGraph.single_whole_getTx, if_pos hx]), if_pos hx]
    · rw [if_neg hx]
      unfold TxGraph.getTxout
      simp only [OMap.get_insert, if_neg hx, OMap.get_empty]
  have hfu : TrueOutputs f (⟨OMap.empty.insert (asTx tx).txid (.whole tx), OMap.empty⟩ : TxGraph T) := by
    refine ⟨fun op x hx => ?_, fun op hx => ?_⟩
    · rw [hug] at hx
      split_ifs at hx with hc
      rw [hfx op hc]; exact hx
    · rw [TxGraph.single_whole_getTx] at hx
      split_ifs at hx with hc
      · rw [hug, if_pos hc, hfx op hc]
      · exact absurd rfl hx
  have hgraph : t'.chainGraph.graph = (t.chainGraph.graph.applyUpdate ⟨OMap.empty.insert (asTx tx).txid (.whole tx), OMap.empty⟩
      (HashOrder.id _)).1 := by
    have : t'.chainGraph.graph = (t.chainGraph.graph.insertTx tx).1 := insertTx_graph ht h
    rw [this]; rfl
  have hscan' : t.txoutIndex.scan (t.chainGraph.graph.determineAdditions
      ⟨OMap.empty.insert (asTx tx).txid (.whole tx), OMap.empty⟩ (HashOrder.id _)).txouts = some (t'.txoutIndex, cs0) := hscan
  obtain ⟨k1, k2, k3, k4⟩ := KeychainIndex.scan_keeps hscan' hi hd
  simp only at k1 k3
  have hi' := KeychainIndex.reachable_inv (tracker_parts hr').1 (KeychainIndex.AllDerivable_congr k1 hd)
  refine ⟨?_, by rw [hgraph]; exact merged_true hkeys hf hfu⟩
  intro op k i out
  have hsc : ScriptOf t'.txoutIndex k i out.spk ↔ ScriptOf t.txoutIndex k i out.spk := by unfold ScriptOf; rw [k1]
  rw [hgraph, merged_outputs hkeys hf hfu, hsc]
  constructor
  · intro hr
    obtain ⟨-, hsc'⟩ := record_script hi' hr
    refine ⟨?_, hsc.1 hsc'⟩
    rcases Accounting.scan_recorded hscan' hi hd hr with h1 | h1
    · rw [((he op k i out).1 h1).1]; rfl
    · have h2 := added_known hkeys h1
      cases hx : t.chainGraph.graph.getTxout op with
      | none => rw [h2]; rfl
      | some y =>
        have := hf.1 op y hx
        rw [hfu.1 op _ h2] at this
        rw [← Option.some.inj this]; rfl
  · rintro ⟨h1, h2⟩
    by_cases hadd : ∃ y, (op, y) ∈ (t.chainGraph.graph.determineAdditions
        ⟨OMap.empty.insert (asTx tx).txid (.whole tx), OMap.empty⟩ (HashOrder.id _)).txouts
    · obtain ⟨y, hy⟩ := hadd
      have h3 := added_known hkeys hy
      have hyo : y = out := by
        have e1 := hfu.1 op y h3
        rcases Option.or_eq_some_iff.1 h1 with h4 | ⟨-, h4⟩
        · have := hf.1 op out h4
          rw [e1] at this; exact Option.some.inj this
        · rw [h3] at h4; exact Option.some.inj h4
      subst hyo
      refine Sync.scan_finds_stored hscan' hi hd (Sync.additions_nodup _ _ hkeys _) hy ?_
      rw [hug] at h3
      split_ifs at h3
      exact hk y (List.mem_of_getElem? h3) k i h2
    · have hno : ∀ y, (op, y) ∉ (t.chainGraph.graph.determineAdditions
        ⟨OMap.empty.insert (asTx tx).txid (.whole tx), OMap.empty⟩ (HashOrder.id _)).txouts := fun y hy => hadd ⟨y, hy⟩
      rw [k3 op hno, he]
      refine ⟨?_, h2⟩
      cases hx : t.chainGraph.graph.getTxout op with
      | some z => rw [hx] at h1; cases h1; rfl
      | none =>
        exfalso
        rw [hx] at h1
        apply hno out
        refine unknown_added hkeys _ h1 ?_ hx
        by_contra hn
        have := hf.2 op hn
        rw [hx, hfu.1 op out h1] at this
        cases this

/-- **C77** revealing and reserving scripts keeps the records exact -/
theorem C77_reveal_exact {t : Tracker K D P T} (ht : t.Reachable) (hd : AllDerivable t.txoutIndex) (he : ExactRecords t)
    {op : Tracker.Op K P T} (hop : match op with | .applyUpdate _ _ | .insertTx _ _ _ | .insertCheckpoint _ _ => False | _ => True)
    {r} (hr : t.step op = some r) : ExactRecords r.1 ∧ r.1.chainGraph = t.chainGraph := by
  have hi := KeychainIndex.reachable_inv (tracker_parts ht).1 hd
  have hvia : ∀ {q : Option (KeychainIndex K D × DerivationAdditions K)}, t.viaIndex q = some r →
      (∀ x, q = some x → x.1.inner.txouts = t.txoutIndex.inner.txouts ∧ x.1.keychains = t.txoutIndex.keychains) →
      ExactRecords r.1 ∧ r.1.chainGraph = t.chainGraph := by
    intro q hq hx
    unfold Tracker.viaIndex at hq
    obtain ⟨x, rfl, rfl⟩ := Option.map_eq_some_iff.1 hq
    obtain ⟨h1, h2⟩ := hx x rfl
    refine ⟨fun op k i out => ?_, rfl⟩
    have := he op k i out
    unfold ScriptOf SpkIndex.txout at this ⊢
    simp only
    rw [h1, h2]; exact this
  have hrev : ∀ {k n r}, t.txoutIndex.revealToTarget k n = some r →
      r.1.inner.txouts = t.txoutIndex.inner.txouts ∧ r.1.keychains = t.txoutIndex.keychains := by
    intro k n r h
    obtain ⟨_, _, _, -, -, -, -, -, g1, -, g, -⟩ := KeychainIndex.reveal_main h hi hd
    exact ⟨g, g1⟩
  have hnext : ∀ {k r}, t.txoutIndex.revealNextSpk k = some r →
      r.1.inner.txouts = t.txoutIndex.inner.txouts ∧ r.1.keychains = t.txoutIndex.keychains := by
    intro k r h
    obtain ⟨n, r', -, h2, -, e1, -⟩ := KeychainIndex.revealNext_spec h
    rw [e1]; exact hrev h2
  have hunused : ∀ {k r}, t.txoutIndex.nextUnusedSpk k = some r →
      r.1.inner.txouts = t.txoutIndex.inner.txouts ∧ r.1.keychains = t.txoutIndex.keychains := by
    intro k r h
    obtain ⟨l, -, ⟨-, h1⟩ | ⟨l', -, e1, -⟩⟩ := KeychainIndex.nextUnused_spec h
    · exact hnext h1
    · rw [e1]; exact ⟨rfl, rfl⟩
  cases op with
  | applyUpdate => cases hop
  | insertTx => cases hop
  | insertCheckpoint => cases hop
  | revealToTarget k n =>
    refine hvia hr (fun x hx => ?_)
    obtain ⟨y, hy, rfl⟩ := Option.map_eq_some_iff.1 hx
    exact hrev hy
  | revealToTargetMulti m =>
    refine hvia hr (fun x hx => ?_)
    obtain ⟨y, hy, rfl⟩ := Option.map_eq_some_iff.1 hx
    have := KeychainIndex.applyAdditions_eq (s := t.txoutIndex) (a := m)
    unfold KeychainIndex.applyAdditions at this
    rw [hy] at this
    obtain ⟨-, -, h3⟩ := revealAll_txouts this.symm hi hd
    exact ⟨h3, (KeychainIndex.revealMulti_upd hy).kc⟩
  | revealNextSpk k =>
    refine hvia hr (fun x hx => ?_)
    obtain ⟨y, hy, rfl⟩ := Option.map_eq_some_iff.1 hx
    exact hnext hy
  | revealAndReserveNextSpk k =>
    refine hvia hr (fun x hx => ?_)
    obtain ⟨y, hy, rfl⟩ := Option.map_eq_some_iff.1 hx
    obtain ⟨q, h2, h3, -⟩ := KeychainIndex.revealReserve_spec hy
    show y.1.inner.txouts = _ ∧ y.1.keychains = _
    rw [h3]; exact hnext h2
  | nextUnusedSpk k =>
    refine hvia hr (fun x hx => ?_)
    obtain ⟨y, hy, rfl⟩ := Option.map_eq_some_iff.1 hx
    exact hunused hy
  | reserveNextUnusedSpk k =>
    refine hvia hr (fun x hx => ?_)
    obtain ⟨y, hy, rfl⟩ := Option.map_eq_some_iff.1 hx
    obtain ⟨q, h2, h3, -⟩ := KeychainIndex.reserveUnused_spec hy
    show y.1.inner.txouts = _ ∧ y.1.keychains = _
    rw [h3]; exact hunused h2
  | markUsed k i =>
    refine hvia hr (fun x hx => ?_)
    cases hx; exact ⟨rfl, rfl⟩
  | unmarkUsed k i =>
    refine hvia hr (fun x hx => ?_)
    cases hx
    refine ⟨?_, rfl⟩
    show ((t.txoutIndex.inner.unmarkUsed (toLex (k, i))).1).txouts = _
    unfold SpkIndex.unmarkUsed
    split_ifs <;> rfl

end


/-! ### two concrete devices -/

section examples
open Verif.Cli

/-- whole transactions only -/
def allWhole (g : TxGraph CliTx) : Bool := g.txs.entries.all fun e => match e.2 with | .whole _ => true | .partialOuts _ => false

theorem whole_of {g : TxGraph CliTx} (h : allWhole g = true) {op : OutPoint} {out : TxOut} (ho : g.getTxout op = some out) :
    ∃ x, g.getTx op.txid = some x := by
  cases hx : g.txs.get op.txid with
  | none => unfold TxGraph.getTxout at ho; rw [hx] at ho; cases ho
  | some n =>
    have := List.all_eq_true.1 h _ (OMap.mem_entries.2 hx)
    cases n with
    | whole x => exact ⟨x, TxGraph.getTx_eq.2 hx⟩
    | partialOuts _ => cases this

/-- the outputs of the five transactions -/
def cliOutputs (op : OutPoint) : Option TxOut :=
  ((List.finRange 5).find? fun n => decide (cliId n = op.txid)).bind fun n => (cliTx n).output[op.vout.val]?

theorem cliOutputs_tx (x : CliTx) (op : OutPoint) (h : (asTx x).txid = op.txid) : cliOutputs op = (asTx x).output[op.vout.val]? := by
  unfold cliOutputs
  have h1 : ∀ n : Fin 5, (List.finRange 5).find? (fun m => decide (cliId m = cliId n)) = some n := by decide +kernel
  have h2 : ∀ n : Fin 5, (cliTx n).txid = cliId n := by decide +kernel
  have : op.txid = cliId x.num := by rw [← h]; exact h2 x.num
  rw [this, h1]; rfl

theorem cli_true {g : TxGraph CliTx} (hk : TxGraph.KeysOk g) (h : allWhole g = true) : TrueOutputs cliOutputs g := by
  refine ⟨fun op out ho => ?_, fun op hop => ?_⟩
  · obtain ⟨x, hx⟩ := whole_of h ho
    rw [TxGraph.getTxout_whole hx] at ho
    rw [cliOutputs_tx x op (hk _ _ hx)]; exact ho
  · obtain ⟨x, hx⟩ := Option.ne_none_iff_exists'.1 hop
    rw [TxGraph.getTxout_whole hx, cliOutputs_tx x op (hk _ _ hx)]

/-- a check for `ExactRecords` -/
def exactB (t : CliTracker) : Bool :=
  (t.txoutIndex.inner.txouts.entries.all fun e => decide (t.chainGraph.graph.getTxout e.1 = some e.2.2)) &&
  t.chainGraph.graph.txs.entries.all fun e => match e.2 with
    | .partialOuts _ => false
    | .whole x => (asTx x).output.zipIdx.all fun q => [Keychain.external, Keychain.internal].all fun k =>
        match t.txoutIndex.keychains.get k with
        | none => true
        | some d => decide (q.1.spk % 4 ≠ d.base.val) ||
            decide (t.txoutIndex.inner.txout ⟨e.1, Fin.ofNat _ q.2⟩ = some (toLex (k, q.1.spk / 4), q.1))

theorem exact_of {t : CliTracker} (hr : t.Reachable) (h : exactB t = true) : ExactRecords t := by
  unfold exactB at h
  rw [Bool.and_eq_true] at h
  have hd : AllDerivable t.txoutIndex := fun _ d _ => demo_derivable d
  intro op k i out
  constructor
  · intro hx
    exact ⟨of_decide_eq_true (List.all_eq_true.1 h.1 _ (OMap.mem_entries.2 hx)),
      (record_script (KeychainIndex.reachable_inv (tracker_parts hr).1 hd) hx).2⟩
  · rintro ⟨h1, d, h2, -, h3⟩
    cases hx : t.chainGraph.graph.txs.get op.txid with
    | none => unfold TxGraph.getTxout at h1; rw [hx] at h1; cases h1
    | some n =>
      have h4 := List.all_eq_true.1 h.2 _ (OMap.mem_entries.2 hx)
      cases n with
      | partialOuts _ => cases h4
      | whole x =>
        rw [TxGraph.getTxout_whole (TxGraph.getTx_eq.2 hx)] at h1
        have hm : (out, op.vout.val) ∈ (asTx x).output.zipIdx := List.mem_zipIdx_iff_getElem?.2 h1
        have h5 := List.all_eq_true.1 (List.all_eq_true.1 h4 _ hm) k (by cases k <;> simp)
        simp only [h2] at h5
        have e : 4 * i + d.base.val = out.spk := Option.some.inj h3
        have hlt := d.base.isLt
        have e1 : out.spk % 4 = d.base.val := by rw [← e]; exact (Nat.mul_add_mod _ _ _).trans (Nat.mod_eq_of_lt hlt)
        have e2 : out.spk / 4 = i := by
          rw [← e]
          have : ∀ b : Nat, b < 4 → (4 * i + b) / 4 = i := fun b hb => by omega
          exact this _ hlt
        have e3 : (Fin.ofNat (2 ^ 32) op.vout.val) = op.vout := Fin.ext (Nat.mod_eq_of_lt op.vout.isLt)
        rw [Bool.or_eq_true] at h5
        rcases h5 with h5 | h5
        · exact absurd e1 (of_decide_eq_true h5)
        · have h6 := of_decide_eq_true h5
          rw [e2] at h6
          rw [← h6]
          exact congrArg t.txoutIndex.inner.txout (show op = ⟨op.txid, Fin.ofNat _ op.vout.val⟩ by cases op; exact congrArg _ e3.symm)

theorem cli_noCollision {t : CliTracker} (h : t.txoutIndex.keychains = exBase.txoutIndex.keychains) : NoCollision t.txoutIndex := by
  have hb : ∀ k d, exBase.txoutIndex.keychains.get k = some d → d.base.val = (match k with | .external => 0 | .internal => 1) := by
    have : (exBase.txoutIndex.keychains.entries.all fun e =>
      decide (e.2.base.val = (match e.1 with | .external => 0 | .internal => 1))) = true := by decide +kernel
    intro k d hk
    exact of_decide_eq_true (List.all_eq_true.1 this _ (OMap.mem_entries.2 hk))
  intro k d i k' d' j spk hk hk' _ _ h1 h2
  rw [h] at hk hk'
  have a := hb k d hk
  have b := hb k' d' hk'
  have c1 : 4 * i + d.base.val = spk := Option.some.inj h1
  have c2 : 4 * j + d'.base.val = spk := Option.some.inj h2
  cases k <;> cases k' <;> simp only at a b <;> constructor <;> first | rfl | omega

/-- the wallet of the two devices, with two keychains, no lookahead and no limit on the checkpoints -/
def devBase : CliTracker := exBase.setCheckpointLimit none
theorem devBase_reachable : devBase.Reachable := .setCheckpointLimit none (initTracker_reachable exBase_init)
/-- the devices: the first has seen the payment to script 0, the second has revealed three scripts and has seen a block and the payment
to script 1 in it -/
def devOne : CliTracker := ((devBase.runFrom [.revealNextSpk .external, .insertTx ⟨0⟩ .unconfirmed oC]).map Prod.fst).getD devBase
def devTwoOps : List (Tracker.Op Keychain TxHeight CliTx) :=
  [.revealToTarget .external 2, .insertCheckpoint ⟨5, 15⟩ oC, .insertTx ⟨3⟩ (.confirmed 5) oC]
def devTwo : CliTracker := ((devBase.runFrom devTwoOps).map Prod.fst).getD devBase

theorem cli_run_reachable {t : CliTracker} (ht : t.Reachable) (ops : List (Tracker.Op Keychain TxHeight CliTx))
    (h : ∀ op ∈ ops, match op with | .applyUpdate _ _ => False | _ => True) :
    (((t.runFrom ops).map Prod.fst).getD t).Reachable := by
  cases hr : t.runFrom ops with
  | none => exact ht
  | some r =>
    refine tracker_run_reachable ht ops (fun op hop => ?_) hr
    have := h op hop
    cases op <;> trivial

theorem devOne_reachable : devOne.Reachable := by
  refine cli_run_reachable devBase_reachable _ ?_
  intro op hop
  simp only [List.mem_cons, List.not_mem_nil, or_false] at hop
  rcases hop with rfl | rfl <;> trivial

theorem devTwo_reachable : devTwo.Reachable := by
  refine cli_run_reachable devBase_reachable _ ?_
  intro op hop
  simp only [devTwoOps, List.mem_cons, List.not_mem_nil, or_false] at hop
  rcases hop with rfl | rfl | rfl <;> trivial

/-- a check for `Room` and the range of indices -/
def roomB (t : CliTracker) : Bool :=
  [Keychain.external, Keychain.internal].all fun k => decide (numRevealed t.txoutIndex k ≤ 1000) &&
    decide (t.txoutIndex.lookaheadOf k ≤ 1000)

theorem cli_working {t : CliTracker} (hr : t.Reachable) (hk : t.txoutIndex.keychains = exBase.txoutIndex.keychains)
    (h1 : roomB t = true) (h2 : HeightsOk t.chainGraph.chain) (h3 : t.chainGraph.chain.checkpointLimit = none) : Working t := by
  have hb : ∀ k, numRevealed t.txoutIndex k ≤ 1000 ∧ t.txoutIndex.lookaheadOf k ≤ 1000 := by
    intro k
    have := List.all_eq_true.1 h1 k (by cases k <;> simp)
    rw [Bool.and_eq_true] at this
    exact ⟨of_decide_eq_true this.1, of_decide_eq_true this.2⟩
  refine ⟨hr, fun _ d _ => demo_derivable d, cli_noCollision hk, fun k => ?_, fun k i hi => ?_, h2, h3⟩
  · have := hb k; omega
  · have := numRevealed_le.1 (hb k).1 i hi
    have := _root_.Verif.bip32Max_val
    omega

theorem devOne_working : Working devOne :=
  cli_working devOne_reachable (by decide +kernel) (by decide +kernel) (SparseChain.heightsOk_of_B (by decide +kernel)) (by decide +kernel)
theorem devTwo_working : Working devTwo :=
  cli_working devTwo_reachable (by decide +kernel) (by decide +kernel) (SparseChain.heightsOk_of_B (by decide +kernel)) (by decide +kernel)

/-- the hypotheses of `C77_same_wallet` hold, the wallets differ before, and the exchange is a real one -/
example : Working devOne ∧ Working devTwo ∧ ExactRecords devOne ∧ ExactRecords devTwo ∧
    devOne.txoutIndex.keychains = devTwo.txoutIndex.keychains ∧ TrueOutputs cliOutputs devOne.chainGraph.graph ∧
    TrueOutputs cliOutputs devTwo.chainGraph.graph ∧ ParentsShared devOne.chainGraph devTwo.chainGraph ∧
    SameVersions devOne.chainGraph.graph devTwo.chainGraph.graph ∧
    (devOne.applyUpdate (shared devTwo) oC).map (fun r => (r.1.fullUtxos soId).map fun e => (e.1, e.2.txout.value)) =
      some [((.external, 0), 100000), ((.external, 1), 100000)] ∧
    (devOne.fullUtxos soId).map (fun e => e.1) = [(.external, 0)] ∧ (devTwo.fullUtxos soId).map (fun e => e.1) = [(.external, 1)] ∧
    numRevealed devOne.txoutIndex .external = 1 ∧ numRevealed devTwo.txoutIndex .external = 3 :=
  ⟨devOne_working, devTwo_working, exact_of devOne_reachable (by decide +kernel), exact_of devTwo_reachable (by decide +kernel),
    by decide +kernel, cli_true (ChainGraph.reachable_inv (tracker_parts devOne_reachable).2).wf.keys (by decide +kernel),
    cli_true (ChainGraph.reachable_inv (tracker_parts devTwo_reachable).2).wf.keys (by decide +kernel),
    parentsShared_of (tracker_parts devOne_reachable).2 (by decide +kernel), sameVersions_of (by decide +kernel), by decide +kernel,
    by decide +kernel, by decide +kernel, by decide +kernel, by decide +kernel⟩

/-- a device that has seen the payment to script 1 before it revealed that script -/
def devLate : CliTracker := ((devBase.runFrom [.insertTx ⟨3⟩ .unconfirmed oC]).map Prod.fst).getD devBase

theorem devLate_reachable : devLate.Reachable := by
  refine cli_run_reachable devBase_reachable _ ?_
  intro op hop
  simp only [List.mem_cons, List.not_mem_nil, or_false] at hop
  rcases hop with rfl; trivial

/-- the output it has missed -/
theorem devLate_missed : devLate.chainGraph.graph.getTxout ⟨cliId 3, 0⟩ = some ⟨100000, 4⟩ ∧
    ScriptOf devLate.txoutIndex .external 1 4 ∧ devLate.txoutIndex.inner.txout ⟨cliId 3, 0⟩ = none :=
  ⟨by decide +kernel, ⟨⟨true, 0⟩, by decide +kernel, by decide +kernel, rfl⟩, by decide +kernel⟩

/-- **C77** the finding: a device that saw a payment before it derived the script stays without it when the other device tells it, although
the script is then revealed and the other device has the output: what is in its graph already is not looked at again -/
theorem C77_late_misses : ∃ (a b a' : CliTracker) (cs : KeychainChangeSet Keychain TxHeight CliTx), Working a ∧ Working b ∧
    ExactRecords b ∧ a.txoutIndex.keychains = b.txoutIndex.keychains ∧ TrueOutputs cliOutputs a.chainGraph.graph ∧
    TrueOutputs cliOutputs b.chainGraph.graph ∧ a.applyUpdate (shared b) oC = some (a', .ok cs) ∧
    numRevealed a'.txoutIndex .external = 3 ∧ a'.chainGraph.chain.txPosition (cliId 3) = some (.confirmed 5) ∧
    (b.fullUtxos soId).map (fun e => (e.1, e.2.txout.value)) = [((.external, 1), 100000)] ∧ a'.fullUtxos soId = [] := by
  have hw : Working devLate := cli_working devLate_reachable (by decide +kernel) (by decide +kernel)
    (SparseChain.heightsOk_of_B (by decide +kernel)) (by decide +kernel)
  have hok : (devLate.applyUpdate (shared devTwo) oC).map (fun r => (match r.2 with | .ok _ => true | .error _ => false,
      numRevealed r.1.txoutIndex .external, r.1.chainGraph.chain.txPosition (cliId 3), (r.1.fullUtxos soId).length)) =
      some (true, 3, some (.confirmed 5), 0) := by decide +kernel
  cases hr : devLate.applyUpdate (shared devTwo) oC with
  | none => rw [hr] at hok; cases hok
  | some r =>
    rw [hr] at hok
    obtain ⟨a', e⟩ := r
    simp only [Option.map_some, Option.some.injEq, Prod.mk.injEq] at hok
    cases e with
    | error _ => cases hok.1
    | ok cs =>
      exact ⟨devLate, devTwo, a', cs, hw, devTwo_working, exact_of devTwo_reachable (by decide +kernel), by decide +kernel,
        cli_true (ChainGraph.reachable_inv (tracker_parts devLate_reachable).2).wf.keys (by decide +kernel),
        cli_true (ChainGraph.reachable_inv (tracker_parts devTwo_reachable).2).wf.keys (by decide +kernel), hr, hok.2.1, hok.2.2.1,
        by decide +kernel, List.eq_nil_of_length_eq_zero hok.2.2.2⟩

end examples

end Verif.Props
