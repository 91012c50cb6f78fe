import Verif.Spec.AccountingUpdate
import Verif.Lemmas.Sync3
import Verif.Props.Accounting
import Verif.Props.Exchange

/-!
# C73, updates: what a whole update does to the money of a wallet
-/

set_option linter.unusedSectionVars false

namespace Verif.Props
open Verif Verif.Spec Verif.Accounting

section
variable {K D P T : Type} [LinearOrder K] [DescriptorOps D] [DecidableEq D] [LinearOrder P] [ChainPosition P]
  [LawfulChainPosition P] [AsTransaction T] [LawfulTx T] [LinearOrder T]

/-- revealing scripts records no output -/
theorem revealAll_txouts {l : List (K × Nat)} {s s' : KeychainIndex K D} (h : KeychainIndex.revealAll s l = some s')
    (hi : KeychainIndex.Inv s) (hd : AllDerivable s) :
    KeychainIndex.Inv s' ∧ AllDerivable s' ∧ s'.inner.txouts = s.inner.txouts := by
  induction l generalizing s with
  | nil => cases h; exact ⟨hi, hd, rfl⟩
  | cons e l ih =>
    rw [KeychainIndex.revealAll_cons] at h
    cases h1 : s.revealToTarget e.1 e.2 with
    | none => rw [h1] at h; cases h
    | some r =>
      rw [h1] at h
      have hu := KeychainIndex.reveal_upd h1
      obtain ⟨_, _, _, -, -, -, -, -, -, -, g, -⟩ := KeychainIndex.reveal_main h1 hi hd
      obtain ⟨a1, a2, a3⟩ := ih h (hu.inv hd hi) (KeychainIndex.AllDerivable_congr hu.kc hd)
      exact ⟨a1, a2, a3.trans g⟩

/-- what a successful `apply_update` of the wallet is -/
structure Updated (t : Tracker K D P T) (u : ChainGraph P T) (t' : Tracker K D P T) : Prop where
  reach : t'.Reachable
  chain : ∀ c, InChain t'.chainGraph.chain c ↔ Remains t u c
  graph : ∀ c, t'.chainGraph.graph.getTx c = (t.chainGraph.graph.getTx c).or (u.graph.getTx c)
  index : ∀ op, t.chainGraph.graph.getTx op.txid ≠ none → t'.txoutIndex.inner.txout op = t.txoutIndex.inner.txout op

theorem updated {t t' : Tracker K D P T} {sc : KeychainScan K P T} {o : Orders P T} {cs : KeychainChangeSet K P T}
    (ht : t.Reachable) (hd : AllDerivable t.txoutIndex) (hu : sc.update.Reachable)
    (h : t.applyUpdate sc o = some (t', .ok cs)) : Updated t sc.update t' := by
  have hs := Sync.applyUpdate_parts h
  obtain ⟨hreach, hcg⟩ := tracker_parts ht
  have hi := ChainGraph.reachable_inv hcg
  have hui := ChainGraph.reachable_inv hu
  have hr : t'.Reachable := by
    have hst : t.step (.applyUpdate sc o) = some (t', some cs) := by
      show (t.applyUpdate sc o).map Tracker.logged = _
      rw [h]; rfl
    exact tracker_step_reachable ht (.applyUpdate sc o) hu hst
  obtain ⟨h1, h2⟩ := C26_update t.chainGraph sc.update hcg hu o
  obtain ⟨-, g2, -⟩ : _ := by
    cases hp : (t.chainGraph.chain.applyUpdate sc.update.chain o.chain).2 with
    | error e => have hok := hs.ok; rw [h1 e hp] at hok; cases hok
    | ok cs0 => exact h2 cs0 hp
  obtain ⟨k1, -, k3, k4⟩ := g2 _ hs.ok
  rw [← hs.chain] at k1 k3 k4
  have hgr : ∀ c, t'.chainGraph.graph.getTx c = (t.chainGraph.graph.getTx c).or (sc.update.graph.getTx c) := by
    intro c; rw [k1, TxGraph.applyUpdate_getTx hui.wf.keys]
  obtain ⟨cs1, hdet, hpl⟩ : ∃ cs1, t.chainGraph.chain.determineChangeset sc.update.chain o.chain = .ok cs1 ∧
      (t.chainGraph.chain.applyUpdate sc.update.chain o.chain).1 = t.chainGraph.chain.applyChangeset cs1 := by
    cases hp : t.chainGraph.chain.determineChangeset sc.update.chain o.chain with
    | error e =>
      have : (t.chainGraph.chain.applyUpdate sc.update.chain o.chain).2 = .error e := by
        unfold SparseChain.applyUpdate; rw [hp]
      have hok := hs.ok; rw [h1 e this] at hok; cases hok
    | ok cs1 => exact ⟨cs1, rfl, by unfold SparseChain.applyUpdate; rw [hp]⟩
  have hdp := SparseChain.determine_pos hi.cons hdet
  rw [← hpl] at hdp
  have hplain : ∀ c, InChain (t.chainGraph.chain.applyUpdate sc.update.chain o.chain).1 c ↔
      InChain t.chainGraph.chain c ∨ InChain sc.update.chain c := by
    intro c
    constructor
    · intro hc
      by_contra hn
      rw [not_or] at hn
      exact hc ((hdp c).2.1 (not_not.1 hn.2) (not_not.1 hn.1))
    · rintro (hc | hc)
      · exact (hdp c).2.2.1 hc
      · obtain ⟨q, hq⟩ := Option.ne_none_iff_exists'.1 hc
        unfold InChain; rw [(hdp c).1 q hq]; simp
  have hD : ∀ c, (∃ s, Displaces t.chainGraph.chain (t.chainGraph.chain.applyUpdate sc.update.chain o.chain).1 t.chainGraph.graph
      (t.chainGraph.graph.applyUpdate sc.update.graph o.graph).1 s c) ↔ DisplacedByUpdate t sc.update c := by
    intro c
    constructor
    · rintro ⟨s, d1, d2, x, d3, d4⟩
      have hsu := ((hplain s).1 d2).resolve_left d1
      obtain ⟨x', hx'⟩ := hui.full s hsu
      refine ⟨s, x', ⟨hsu, d1, hx'⟩, ?_⟩
      have : asTx x = asTx x' := by
        rw [TxGraph.applyUpdate_getTx hui.wf.keys] at d3
        cases hbx : t.chainGraph.graph.getTx s with
        | none => rw [hbx, Option.none_or, hx'] at d3; cases d3; rfl
        | some z => rw [hbx] at d3; cases d3; exact same_content hi.wf hui.wf hbx hx'
      rw [← this]; exact d4
    · rintro ⟨s, x, ⟨e1, e2, e3⟩, e4⟩
      cases hbx : t.chainGraph.graph.getTx s with
      | none =>
        exact ⟨s, e2, (hplain s).2 (.inr e1), x, by rw [TxGraph.applyUpdate_getTx hui.wf.keys, hbx, e3]; rfl, e4⟩
      | some z =>
        exact ⟨s, e2, (hplain s).2 (.inr e1), z, by rw [TxGraph.applyUpdate_getTx hui.wf.keys, hbx]; rfl,
          by rw [same_content hi.wf hui.wf hbx e3]; exact e4⟩
  refine ⟨hr, fun c => ?_, hgr, fun op hop => ?_⟩
  · unfold Remains
    by_cases hx : DisplacedByUpdate t sc.update c
    · constructor
      · intro hh; exact absurd (k3 c ((hD c).2 hx)) hh
      · rintro ⟨-, hh⟩; exact absurd hx hh
    · unfold InChain
      rw [k4 c (fun hh => hx ((hD c).1 hh))]
      exact ⟨fun hh => ⟨(hplain c).1 hh, hx⟩, fun hh => (hplain c).2 hh.1⟩
  · obtain ⟨ix, r, e1, e2, e3⟩ := hs.index
    rw [KeychainIndex.applyAdditions_eq] at e1
    obtain ⟨i1, i2, i3⟩ := revealAll_txouts e1 (KeychainIndex.reachable_inv hreach hd) hd
    obtain ⟨-, -, h3, -⟩ := KeychainIndex.scan_keeps e2 i1 i2
    rw [e3, h3 op]
    · unfold SpkIndex.txout; rw [i3]
    · intro x hx
      rw [hs.graph] at hx
      unfold Additions.txouts at hx
      rcases List.mem_append.1 hx with hx | hx
      · obtain ⟨y, hy, hyx⟩ := List.mem_flatMap.1 hx
        obtain ⟨k, f1, f2⟩ := (TxGraph.determine_tx _ _ _ _).1 (OSet.mem_toList.1 hy)
        rw [(mem_txouts.1 hyx).1, hui.wf.keys k y f1] at hop
        exact hop f2
      · have := OMap.mem_entries.1 hx
        rw [TxGraph.determine_txout, if_neg (fun hh => hop hh.1)] at this
        cases this

/-- **C73** (updates) the unspent outputs after an update, whatever it replaces: an output counts if its transaction survives and no
surviving transaction spends it; an output of a transaction the wallet had is one of the wallet's outputs before, any other is one that
the index recorded and that the transaction of the update creates -/
theorem C73_update_unspent {t t' : Tracker K D P T} (ht : t.Reachable) (hd : AllDerivable t.txoutIndex) {sc : KeychainScan K P T}
    (hu : sc.update.Reachable) {o : Orders P T} {cs} (h : t.applyUpdate sc o = some (t', .ok cs)) (so : SpendOrder)
    (k : K) (i : Nat) (op : OutPoint) (out : TxOut) :
    HasUnspent t' so k i op out ↔
      ¬ SpentByRemaining t sc.update op ∧ Remains t sc.update op.txid ∧
      (InChain t.chainGraph.chain op.txid → HasOutput t so k i op out) ∧
      (¬ InChain t.chainGraph.chain op.txid → (∃ x, t'.txoutIndex.inner.txout op = some (toLex (k, i), x)) ∧
        ∃ x, sc.update.graph.getTx op.txid = some x ∧ (asTx x).output[op.vout.val]? = some out) := by
  have hup := updated ht hd hu h
  obtain ⟨hreach, hcg⟩ := tracker_parts ht
  have hi := ChainGraph.reachable_inv hcg
  have hui := ChainGraph.reachable_inv hu
  rw [unspent_iff hup.reach, hup.chain]
  have hspend : (¬ ∃ s y, InChain t'.chainGraph.chain s ∧ t'.chainGraph.graph.getTx s = some y ∧ Spends (asTx y) op) ↔
      ¬ SpentByRemaining t sc.update op := by
    apply not_congr
    constructor
    · rintro ⟨s, y, e1, e2, e3⟩
      rw [hup.graph] at e2
      refine ⟨s, y, (hup.chain s).1 e1, ?_, e3⟩
      cases hx : t.chainGraph.graph.getTx s with
      | none => rw [hx, Option.none_or] at e2; exact .inr e2
      | some z => rw [hx] at e2; exact .inl e2
    · rintro ⟨s, y, e1, e2, e3⟩
      cases hx : t.chainGraph.graph.getTx s with
      | none =>
        rw [hx] at e2
        exact ⟨s, y, (hup.chain s).2 e1, by rw [hup.graph, hx, Option.none_or]; exact e2.resolve_left (by simp), e3⟩
      | some z =>
        refine ⟨s, z, (hup.chain s).2 e1, by rw [hup.graph, hx]; rfl, ?_⟩
        rcases e2 with e2 | e2
        · rw [hx] at e2; cases e2; exact e3
        · rw [same_content hi.wf hui.wf hx e2]; exact e3
  rw [hspend]
  by_cases hc : InChain t.chainGraph.chain op.txid
  · obtain ⟨y, hy⟩ := hi.full _ hc
    have e1 := hup.index op (by rw [hy]; simp)
    have e2 : t'.chainGraph.graph.getTx op.txid = t.chainGraph.graph.getTx op.txid := by rw [hup.graph, hy]; rfl
    rw [e1, e2]
    constructor
    · rintro ⟨a1, a2, a3, a4⟩
      exact ⟨a4, a2, fun _ => (output_iff ht so k i op out).2 ⟨a1, hc, a3⟩, fun hn => absurd hc hn⟩
    · rintro ⟨a1, a2, a3, -⟩
      obtain ⟨b1, -, b3⟩ := (output_iff ht so k i op out).1 (a3 hc)
      exact ⟨b1, a2, b3, a1⟩
  · constructor
    · rintro ⟨a1, a2, ⟨x, a3, a5⟩, a4⟩
      refine ⟨a4, a2, fun hn => absurd hn hc, fun _ => ⟨a1, ?_⟩⟩
      obtain ⟨x', hx'⟩ := hui.full _ (a2.1.resolve_left hc)
      have ht'i := ChainGraph.reachable_inv (tracker_parts hup.reach).2
      exact ⟨x', hx', by rw [← same_content ht'i.wf hui.wf a3 hx']; exact a5⟩
    · rintro ⟨a1, a2, -, a3⟩
      obtain ⟨b1, x, b2, b3⟩ := a3 hc
      refine ⟨b1, a2, ?_, a1⟩
      have ht'i := ChainGraph.reachable_inv (tracker_parts hup.reach).2
      obtain ⟨x', hx'⟩ := ht'i.full _ ((hup.chain _).2 a2)
      exact ⟨x', hx', by rw [same_content ht'i.wf hui.wf hx' b2]; exact b3⟩

/-- **C73** (updates) an update that displaces nothing changes the value of the unspent outputs by exactly the value of the unspent
outputs of the transactions it brings, minus the value of the outputs of the wallet that those transactions spend -/
theorem C73_update_value {t t' : Tracker K D P T} (ht : t.Reachable) (hd : AllDerivable t.txoutIndex) {sc : KeychainScan K P T}
    (hu : sc.update.Reachable) {o : Orders P T} {cs} (h : t.applyUpdate sc o = some (t', .ok cs)) (so : SpendOrder)
    (hnd : ∀ c, ¬ DisplacedByUpdate t sc.update c) (spent : OutPoint → Bool)
    (hspent : ∀ op, spent op = true ↔ SpentByNews t sc.update op) (new : OutPoint → Bool)
    (hnew : ∀ op, new op = true ↔ ¬ InChain t.chainGraph.chain op.txid) :
    valueOf (t'.fullUtxos so) + valueOf ((t.fullUtxos so).filter fun e => spent e.2.outpoint) =
    valueOf (t.fullUtxos so) + valueOf ((t'.fullUtxos so).filter fun e => new e.2.outpoint) := by
  have hup := updated ht hd hu h
  obtain ⟨hreach, hcg⟩ := tracker_parts ht
  have hi := ChainGraph.reachable_inv hcg
  have hui := ChainGraph.reachable_inv hu
  have hf : ∀ (w : Tracker K D P T) (p : OutPoint → Bool) (k : K) (i : Nat) (op : OutPoint) (out : TxOut),
      (∃ f, ((k, i), f) ∈ (w.fullUtxos so).filter (fun e => !p e.2.outpoint) ∧ f.outpoint = op ∧ f.txout = out) ↔
        HasUnspent w so k i op out ∧ p op = false := by
    intro w p k i op out
    constructor
    · rintro ⟨f, h1, rfl, rfl⟩
      rw [List.mem_filter] at h1
      exact ⟨⟨f, h1.1, rfl, rfl⟩, by simpa using h1.2⟩
    · rintro ⟨⟨f, h1, rfl, rfl⟩, h2⟩
      exact ⟨f, List.mem_filter.2 ⟨h1, by simpa using h2⟩, rfl, rfl⟩
  have hk : valueOf ((t'.fullUtxos so).filter fun e => !new e.2.outpoint) =
      valueOf ((t.fullUtxos so).filter fun e => !spent e.2.outpoint) := by
    refine valueOf_same (nodup_filter (C39_full_utxos t' hup.reach so).2 _) (nodup_filter (C39_full_utxos t ht so).2 _) ?_
    rintro ⟨k, i⟩ op out
    rw [hf, hf, C73_update_unspent ht hd hu h so, ← Bool.not_eq_true, ← Bool.not_eq_true, hnew, hspent, not_not]
    constructor
    · rintro ⟨⟨a1, a2, a3, -⟩, hc⟩
      obtain ⟨b1, -, b3⟩ := (output_iff ht so k i op out).1 (a3 hc)
      refine ⟨(unspent_iff ht so k i op out).2 ⟨b1, hc, b3, ?_⟩, ?_⟩
      · rintro ⟨s, y, e1, e2, e3⟩
        exact a1 ⟨s, y, ⟨.inl e1, hnd s⟩, .inl e2, e3⟩
      · rintro ⟨s, x, ⟨e1, e2, e3⟩, e4⟩
        exact a1 ⟨s, x, ⟨.inr e1, hnd s⟩, .inr e3, e4⟩
    · rintro ⟨hun, hns⟩
      obtain ⟨b1, hc, b3, b4⟩ := (unspent_iff ht so k i op out).1 hun
      refine ⟨⟨?_, ⟨.inl hc, hnd _⟩, fun _ => (output_iff ht so k i op out).2 ⟨b1, hc, b3⟩, fun hn => absurd hc hn⟩, hc⟩
      rintro ⟨s, y, ⟨e1, -⟩, e2, e3⟩
      by_cases hst : InChain t.chainGraph.chain s
      · obtain ⟨z, hz⟩ := hi.full s hst
        refine b4 ⟨s, z, hst, hz, ?_⟩
        rcases e2 with e2 | e2
        · rw [hz] at e2; cases e2; exact e3
        · rw [same_content hi.wf hui.wf hz e2]; exact e3
      · have hsu := e1.resolve_left hst
        obtain ⟨z, hz⟩ := hui.full s hsu
        refine hns ⟨s, z, ⟨hsu, hst, hz⟩, ?_⟩
        rcases e2 with e2 | e2
        · rw [same_content hui.wf hi.wf hz e2]; exact e3
        · rw [hz] at e2; cases e2; exact e3
  have e1 := valueOf_split (t'.fullUtxos so) new
  have e2 := valueOf_split (t.fullUtxos so) spent
  omega

/-- **C73** (updates) an update that brings no transaction the wallet does not have (confirmations, reorgs, new blocks) changes neither
the unspent outputs nor their value -/
theorem C73_update_no_news {t t' : Tracker K D P T} (ht : t.Reachable) (hd : AllDerivable t.txoutIndex) {sc : KeychainScan K P T}
    (hu : sc.update.Reachable) {o : Orders P T} {cs} (h : t.applyUpdate sc o = some (t', .ok cs)) (so : SpendOrder)
    (hold : ∀ s, InChain sc.update.chain s → InChain t.chainGraph.chain s) :
    (∀ k i op out, HasUnspent t' so k i op out ↔ HasUnspent t so k i op out) ∧
    valueOf (t'.fullUtxos so) = valueOf (t.fullUtxos so) := by
  have hup := updated ht hd hu h
  obtain ⟨hreach, hcg⟩ := tracker_parts ht
  have hi := ChainGraph.reachable_inv hcg
  have hui := ChainGraph.reachable_inv hu
  have hnd : ∀ c, ¬ DisplacedByUpdate t sc.update c := fun c ⟨s, _, hb, _⟩ => hb.2.1 (hold s hb.1)
  have hin : ∀ c, InChain t'.chainGraph.chain c ↔ InChain t.chainGraph.chain c := by
    intro c
    rw [hup.chain]
    exact ⟨fun hh => hh.1.elim id (hold c), fun hh => ⟨.inl hh, hnd c⟩⟩
  have hmem : ∀ k i op out, HasUnspent t' so k i op out ↔ HasUnspent t so k i op out := by
    intro k i op out
    rw [unspent_iff hup.reach, unspent_iff ht, hin]
    have hg : ∀ c, InChain t.chainGraph.chain c → t'.chainGraph.graph.getTx c = t.chainGraph.graph.getTx c := by
      intro c hc
      obtain ⟨y, hy⟩ := hi.full _ hc
      rw [hup.graph, hy]; rfl
    have hs : (∃ s y, InChain t'.chainGraph.chain s ∧ t'.chainGraph.graph.getTx s = some y ∧ Spends (asTx y) op) ↔
        ∃ s y, InChain t.chainGraph.chain s ∧ t.chainGraph.graph.getTx s = some y ∧ Spends (asTx y) op := by
      constructor
      · rintro ⟨s, y, e1, e2, e3⟩
        rw [hin] at e1; rw [hg s e1] at e2
        exact ⟨s, y, e1, e2, e3⟩
      · rintro ⟨s, y, e1, e2, e3⟩
        exact ⟨s, y, (hin s).2 e1, by rw [hg s e1]; exact e2, e3⟩
    rw [hs]
    by_cases hc : InChain t.chainGraph.chain op.txid
    · obtain ⟨y, hy⟩ := hi.full _ hc
      rw [hg _ hc, hup.index op (by rw [hy]; simp)]
    · tauto
  refine ⟨hmem, valueOf_same (C39_full_utxos t' hup.reach so).2 (C39_full_utxos t ht so).2 ?_⟩
  rintro ⟨k, i⟩ op out
  exact hmem k i op out

/-- revealing forgets no script -/
theorem reveal_spks {s : KeychainIndex K D} {k : K} {n : Nat} {r} (h : s.revealToTarget k n = some r) (hi : KeychainIndex.Inv s)
    (hd : AllDerivable s) {ki : K ×ₗ Nat} {spk : Script} (hs : s.inner.spks.get ki = some spk) : r.1.inner.spks.get ki = some spk := by
  obtain ⟨d, n, n', hk, hc, hle, hc', -, -, -, -, -, -, hother, -⟩ := KeychainIndex.reveal_main h hi hd
  by_cases hkk : (ofLex ki).1 = k
  · have e1 := hc.1 (ofLex ki).2
    have e2 := hc'.1 (ofLex ki).2
    rw [← hkk] at e1 e2
    have hs2 : s.inner.spks.get (toLex ((ofLex ki).1, (ofLex ki).2)) = some spk := hs
    have e1' : s.inner.spks.get (toLex ((ofLex ki).1, (ofLex ki).2)) = _ := e1
    rw [e1'] at hs2
    show r.1.inner.spks.get (toLex ((ofLex ki).1, (ofLex ki).2)) = _
    rw [e2]
    by_cases hlt : (ofLex ki).2 < n
    · rw [if_pos hlt] at hs2
      rw [if_pos (by omega)]; exact hs2
    · rw [if_neg hlt] at hs2; cases hs2
  · exact (hother (ofLex ki).1 (ofLex ki).2 hkk).trans hs

theorem revealAll_spks {l : List (K × Nat)} {s s' : KeychainIndex K D} (h : KeychainIndex.revealAll s l = some s')
    (hi : KeychainIndex.Inv s) (hd : AllDerivable s) {ki : K ×ₗ Nat} {spk : Script} (hs : s.inner.spks.get ki = some spk) :
    s'.inner.spks.get ki = some spk := by
  induction l generalizing s with
  | nil => cases h; exact hs
  | cons e l ih =>
    rw [KeychainIndex.revealAll_cons] at h
    cases h1 : s.revealToTarget e.1 e.2 with
    | none => rw [h1] at h; cases h
    | some r =>
      rw [h1] at h
      have hu := KeychainIndex.reveal_upd h1
      exact ih h (hu.inv hd hi) (KeychainIndex.AllDerivable_congr hu.kc hd) (reveal_spks h1 hi hd hs)

/-- **C73** (updates) nothing paid to the wallet is missed: an output of a transaction the update brings, and that the wallet has not
seen, to a script the wallet knows is an output of the wallet afterwards; it is unspent unless a transaction that remains spends it -/
theorem C73_update_received {t t' : Tracker K D P T} (ht : t.Reachable) (hd : AllDerivable t.txoutIndex) {sc : KeychainScan K P T}
    (hu : sc.update.Reachable) {o : Orders P T} {cs} (h : t.applyUpdate sc o = some (t', .ok cs)) (so : SpendOrder)
    {x : T} {op : OutPoint} {out : TxOut} (hb : Brings t sc.update op.txid x) (hunseen : t.chainGraph.graph.getTx op.txid = none)
    (hout : (asTx x).output[op.vout.val]? = some out) {k : K} {i : Nat}
    (hmine : t.txoutIndex.inner.indexOfSpk out.spk = some (toLex (k, i))) :
    HasOutput t' so k i op out ∧ (HasUnspent t' so k i op out ↔ ¬ SpentByRemaining t sc.update op) := by
  have hup := updated ht hd hu h
  obtain ⟨hreach, hcg⟩ := tracker_parts ht
  have hi := KeychainIndex.reachable_inv hreach hd
  have hui := ChainGraph.reachable_inv hu
  have hs := Sync.applyUpdate_parts h
  obtain ⟨ix, r, e1, e2, e3⟩ := hs.index
  rw [KeychainIndex.applyAdditions_eq] at e1
  obtain ⟨i1, i2, -⟩ := revealAll_txouts e1 hi hd
  have hspk := revealAll_spks e1 hi hd ((hi.hist.spk_iff _ _).2 hmine)
  have hrem : Remains t sc.update op.txid := ⟨.inr hb.1, fun ⟨_, _, _, hcc⟩ => hb.2.1 hcc.1⟩
  have hrec : t'.txoutIndex.inner.txout op = some (toLex (k, i), out) := by
    rw [e3]
    rw [hs.graph] at e2
    refine scan_stored e2 i1 i2 (Sync.additions_nodup _ _ hui.wf.keys _) ?_ ((i1.hist.spk_iff _ _).1 hspk)
    unfold Additions.txouts
    refine List.mem_append.2 (.inl (List.mem_flatMap.2 ⟨x, ?_, ?_⟩))
    · exact OSet.mem_toList.2 ((TxGraph.determine_tx _ _ _ _).2 ⟨op.txid, hb.2.2, hunseen⟩)
    · exact mem_txouts.2 ⟨(hui.wf.keys _ x hb.2.2).symm, hout⟩
  have hx' : t'.chainGraph.graph.getTx op.txid = some x := by rw [hup.graph, hunseen, Option.none_or, hb.2.2]
  refine ⟨(output_iff hup.reach so k i op out).2 ⟨⟨out, hrec⟩, (hup.chain _).2 hrem, x, hx', hout⟩, ?_⟩
  rw [C73_update_unspent ht hd hu h so]
  constructor
  · exact fun hh => hh.1
  · exact fun hh => ⟨hh, hrem, fun hn => absurd hn hb.2.1, fun _ => ⟨⟨out, hrec⟩, x, hb.2.2, hout⟩⟩

end

/-! ### a concrete update -/

section examples
open Verif.Cli

/-- a block, the confirmation of the wallet's coin and a payment from it -/
def acctUpdate : ChainGraph TxHeight CliTx :=
  ChainGraph.empty.run [.insertCheckpoint ⟨5, 15⟩ oC, .insertTx ⟨0⟩ (.confirmed 5) oC, .insertTx ⟨1⟩ .unconfirmed oC]
theorem acctUpdate_reachable : acctUpdate.Reachable :=
  run_reachable .empty _ (by intro op hop; simp at hop; rcases hop with rfl | rfl | rfl <;> trivial)
def acctScan : KeychainScan Keychain TxHeight CliTx := ⟨acctUpdate, OMap.empty⟩

/-- the update only confirms the coin -/
def acctConfirm : ChainGraph TxHeight CliTx :=
  ChainGraph.empty.run [.insertCheckpoint ⟨5, 15⟩ oC, .insertTx ⟨0⟩ (.confirmed 5) oC]

/-- the wallet after the update, if it is accepted -/
def acctAfter (u : ChainGraph TxHeight CliTx) : Option CliTracker :=
  match acctWallet.applyUpdate ⟨u, OMap.empty⟩ oC with
  | some (t', .ok _) => some t'
  | _ => none

/-- 100000 before; the payment spends 100000 and returns 59692; the confirmation alone changes nothing -/
example : (acctAfter acctUpdate).map (fun t => valueOf (t.fullUtxos soId)) = some 59692 ∧
    (acctAfter acctUpdate).map (fun t => t.chainGraph.chain.txPosition (cliId 0)) = some (some (.confirmed 5)) ∧
    (acctAfter acctConfirm).map (fun t => valueOf (t.fullUtxos soId)) = some 100000 := by decide +kernel

/-- the hypothesis of `C73_update_value` holds for it -/
example : ∀ c, ¬ DisplacedByUpdate acctWallet acctUpdate c := by
  rintro c ⟨s, x, ⟨h1, h2, h3⟩, h4, h5⟩
  obtain ⟨r, ⟨vin, op, e1, ⟨y, e2, e3, e4⟩, e5⟩, e6⟩ := reachVia_first h5 h4
  have hkeys : (acctUpdate.chain.txidToPos.keys.all fun s => (acctWallet.chainGraph.chain.txPosition s).isSome ||
      decide (s = cliId 1)) = true := by decide +kernel
  obtain ⟨p, hp⟩ := Option.ne_none_iff_exists'.1 h1
  have hs := List.all_eq_true.1 hkeys s (OMap.mem_keys.2 ⟨p, hp⟩)
  have hs1 : s = cliId 1 := by
    unfold InChain at h2
    rw [not_not.1 h2] at hs
    simpa using hs
  subst hs1
  have hx : acctUpdate.graph.getTx (cliId 1) = some ⟨1⟩ := by decide +kernel
  rw [hx] at h3; cases h3
  have hop : op = ⟨cliId 0, 0⟩ := by
    have : op ∈ [(⟨cliId 0, 0⟩ : OutPoint)] := List.mem_of_getElem? e1
    simpa using this
  subst hop
  have := forall_chain_spends acctWallet (fun _ op => decide (op.txid ≠ cliId 0)) (by decide +kernel) r y _ e6 e2 ⟨e3, e4⟩
  simp at this

end examples

end Verif.Props
