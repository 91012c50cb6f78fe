import Verif.Spec.Accounting
import Verif.Props.Tracker
import Verif.Props.Cli

/-!
# Lemmas for C73
-/

set_option linter.unusedSectionVars false

namespace Verif.Accounting
open Verif Verif.Spec Verif.Props

section
variable {K D P T : Type} [LinearOrder K] [DescriptorOps D] [DecidableEq D] [LinearOrder P] [ChainPosition P]
  [LawfulChainPosition P] [AsTransaction T] [LawfulTx T] [LinearOrder T]

theorem inChain_get {t : Tracker K D P T} (h : t.Reachable) {op : OutPoint} {p : P} {x : T} :
    t.chainGraph.getTxInChain op.txid = some (some (p, x)) ↔
      t.chainGraph.chain.txPosition op.txid = some p ∧ t.chainGraph.graph.getTx op.txid = some x := by
  unfold ChainGraph.getTxInChain
  cases hp : t.chainGraph.chain.txPosition op.txid with
  | none => simp
  | some q =>
    cases hg : t.chainGraph.graph.getTx op.txid with
    | none => simp
    | some y => simp

/-- the unspent outputs, without their positions -/
theorem unspent_iff {t : Tracker K D P T} (h : t.Reachable) (so : SpendOrder) (k : K) (i : Nat) (op : OutPoint) (out : TxOut) :
    HasUnspent t so k i op out ↔
      (∃ x, t.txoutIndex.inner.txout op = some (toLex (k, i), x)) ∧ InChain t.chainGraph.chain op.txid ∧
      (∃ x, t.chainGraph.graph.getTx op.txid = some x ∧ (asTx x).output[op.vout.val]? = some out) ∧
      ¬ ∃ s y, InChain t.chainGraph.chain s ∧ t.chainGraph.graph.getTx s = some y ∧ Spends (asTx y) op := by
  obtain ⟨h1, -⟩ := C39_full_utxos t h so
  unfold HasUnspent
  constructor
  · rintro ⟨f, hf, rfl, rfl⟩
    obtain ⟨a1, ⟨x, a2, a3, -⟩, -, a4⟩ := (h1 k i f).1 hf
    obtain ⟨b1, b2⟩ := (inChain_get h).1 a2
    exact ⟨a1, by unfold InChain; rw [b1]; simp, ⟨x, b2, a3⟩, a4⟩
  · rintro ⟨a1, a2, ⟨x, a3, a4⟩, a5⟩
    obtain ⟨p, hp⟩ := Option.ne_none_iff_exists'.1 a2
    exact ⟨⟨op, out, p, none, (asTx x).isCoinBase⟩, (h1 k i _).2 ⟨a1, ⟨x, (inChain_get h).2 ⟨hp, a3⟩, a4, rfl⟩, rfl, a5⟩, rfl, rfl⟩

/-- the outputs, without their positions -/
theorem output_iff {t : Tracker K D P T} (h : t.Reachable) (so : SpendOrder) (k : K) (i : Nat) (op : OutPoint) (out : TxOut) :
    HasOutput t so k i op out ↔
      (∃ x, t.txoutIndex.inner.txout op = some (toLex (k, i), x)) ∧ InChain t.chainGraph.chain op.txid ∧
      (∃ x, t.chainGraph.graph.getTx op.txid = some x ∧ (asTx x).output[op.vout.val]? = some out) := by
  obtain ⟨h1, -⟩ := C39_full_txouts t h so
  unfold HasOutput
  constructor
  · rintro ⟨f, hf, rfl, rfl⟩
    obtain ⟨a1, a2⟩ := (h1 k i f).1 hf
    obtain ⟨x, a3, a4, -⟩ := (C27_full_txout_exact _ (tracker_parts h).2 so _ f).1 a2
    obtain ⟨b1, b2⟩ := (inChain_get h).1 a3
    exact ⟨a1, by unfold InChain; rw [b1]; simp, ⟨x, b2, a4⟩⟩
  · rintro ⟨a1, a2, ⟨x, a3, a4⟩⟩
    obtain ⟨p, hp⟩ := Option.ne_none_iff_exists'.1 a2
    have : t.chainGraph.fullTxout so op = some ⟨op, out, p, t.chainGraph.chain.spentBy t.chainGraph.graph so op, (asTx x).isCoinBase⟩ := by
      unfold ChainGraph.fullTxout SparseChain.fullTxout
      rw [hp, a3]
      show ((asTx x).output[op.vout.val]?.bind _) = _
      rw [a4]; rfl
    exact ⟨⟨op, out, p, t.chainGraph.chain.spentBy t.chainGraph.graph so op, (asTx x).isCoinBase⟩, (h1 k i _).2 ⟨a1, this⟩, rfl, rfl⟩

/-- the parts of a successful `insert_tx` -/
theorem insertTx_parts {t t' : Tracker K D P T} (ht : t.Reachable) (hd : AllDerivable t.txoutIndex) {tx : T} {pos : P} {o : Orders P T}
    {cs} (h : t.insertTx tx pos o = some (t', .ok cs)) :
    t'.Reachable ∧
    (∀ c, InChain t'.chainGraph.chain c ↔ c = (asTx tx).txid ∨ (InChain t.chainGraph.chain c ∧ ¬ DisplacedBy t tx c)) ∧
    (∀ c, t'.chainGraph.graph.getTx c = (t.chainGraph.graph.getTx c).or (if c = (asTx tx).txid then some tx else none)) ∧
    (∃ cs0, t.txoutIndex.scan (t.chainGraph.graph.insertTxPreview tx).txouts = some (t'.txoutIndex, cs0)) ∧
    t'.chainGraph.chain.txPosition (asTx tx).txid = some pos := by
  obtain ⟨hreach, hcg⟩ := tracker_parts ht
  have hr : t'.Reachable := by
    have hs : t.step (.insertTx tx pos o) = some (t', some cs) := by
      show (t.insertTx tx pos o).map Tracker.logged = _
      rw [h]; rfl
    exact tracker_step_reachable ht (.insertTx tx pos o) trivial hs
  refine ⟨hr, ?_⟩
  unfold Tracker.insertTx Tracker.applyOk Tracker.insertTxPreview at h
  cases hp : t.chainGraph.insertTxPreview tx pos o with
  | panic => rw [hp] at h; cases h
  | err e => rw [hp] at h; cases h
  | ok cs' =>
    rw [hp] at h
    rw [Option.map_eq_some_iff] at h
    obtain ⟨t1, h1, h2⟩ := h
    cases h2
    unfold Tracker.applyChangeset at h1
    cases ha : t.txoutIndex.applyAdditions (OMap.empty : DerivationAdditions K) with
    | none => simp only [KeychainChangeSet.ofChainGraph, ha] at h1; cases h1
    | some idx =>
      simp only [KeychainChangeSet.ofChainGraph, ha, Option.bind_eq_bind, Option.bind_some] at h1
      have hidx : idx = t.txoutIndex := by
        rw [KeychainIndex.applyAdditions_eq] at ha
        cases ha; rfl
      subst hidx
      cases hsc : t.txoutIndex.scan cs'.graph.txouts with
      | none => rw [hsc] at h1; cases h1
      | some r1 =>
        rw [hsc] at h1
        cases h1
        have hins : t.chainGraph.insertTx tx pos o = (t.chainGraph.applyChangeset cs', .ok cs') := by
          unfold ChainGraph.insertTx ChainGraph.applyOk
          rw [hp]
        have h26 := C26_insert_tx t.chainGraph hcg tx pos o
        simp only [hins] at h26
        have hplain : ∃ cs0, t.chainGraph.chain.insertTxPreview (asTx tx).txid pos o.chain = .ok cs0 ∧
            cs'.graph = t.chainGraph.graph.insertTxPreview tx := by
          unfold ChainGraph.insertTxPreview at hp
          cases hc0 : t.chainGraph.chain.insertTxPreview (asTx tx).txid pos o.chain with
          | panic => rw [hc0] at hp; cases hp
          | err e => rw [hc0] at hp; cases hp
          | ok cs0 =>
            rw [hc0] at hp
            simp only at hp
            refine ⟨cs0, rfl, ?_⟩
            unfold ChainGraph.fixConflicts at hp
            rcases hl : t.chainGraph.chainConflicts ⟨cs0, t.chainGraph.graph.insertTxPreview tx⟩ o.spend
                (t.chainGraph.newTxids ⟨cs0, t.chainGraph.graph.insertTxPreview tx⟩) with _ | l
            · rw [hl] at hp; cases hp
            · rw [hl] at hp
              simp only at hp
              rcases hrs : ChainGraph.resolve l cs0.txids with e | tx
              · rw [hrs] at hp; cases hp
              · rw [hrs] at hp; cases hp; rfl
        obtain ⟨cs0, hc0, hgr⟩ := hplain
        have hpl : t.chainGraph.chain.insertTx (asTx tx).txid pos o.chain = (t.chainGraph.chain.applyChangeset cs0, .ok cs0) := by
          unfold SparseChain.insertTx SparseChain.applyOk
          rw [hc0]
        rw [hpl] at h26
        obtain ⟨-, h26⟩ := h26
        obtain ⟨-, h26, -⟩ := h26 cs0 rfl
        obtain ⟨g1, -, g2, g3⟩ := h26 cs' rfl
        have hinv := ChainGraph.reachable_inv hcg
        obtain ⟨hdd, -⟩ := SparseChain.insertTxPreview_ok hc0
        obtain ⟨c1, c2⟩ := ChainGraph.insertTx_conditions hinv hc0
        have hk : (t.chainGraph.chain.applyChangeset cs0).txPosition (asTx tx).txid = some pos :=
          (SparseChain.determine_pos hinv.cons hdd _).1 _ (OMap.get_insert_self _ _ _)
        refine ⟨fun c => ?_, fun c => ?_, ?_, ?_⟩
        · show (t.chainGraph.applyChangeset cs').chain.txPosition c ≠ none ↔ _
          by_cases hx : DisplacedBy t tx c
          · rw [g2 c hx]
            constructor
            · intro hh; exact absurd rfl hh
            · rintro (rfl | ⟨-, hh⟩)
              · exact absurd hx.2.1 hx.1
              · exact absurd hx hh
          · rw [g3 c hx]
            constructor
            · intro hh
              by_cases hi : InChain t.chainGraph.chain c
              · exact .inr ⟨hi, hx⟩
              · exact .inl (c2 c hi hh).1
            · rintro (rfl | ⟨hh, -⟩)
              · rw [hk]; simp
              · exact c1 c hh
        · show (t.chainGraph.applyChangeset cs').graph.getTx _ = _
          rw [g1, TxGraph.insertTx_getTx]
        · rw [← hgr]; exact ⟨r1.2, hsc⟩
        · show (t.chainGraph.applyChangeset cs').chain.txPosition _ = _
          rw [g3 _ (fun hx => hx.1 hx.2.1)]
          exact hk

/-- scanning keeps the stored scripts -/
theorem scanTxout_spks {s : KeychainIndex K D} {o : OutPoint} {x : TxOut} {r} (h : s.scanTxout o x = some r) (hi : KeychainIndex.Inv s)
    (hd : AllDerivable s) {ki : K ×ₗ Nat} {spk : Script} (hs : s.inner.spks.get ki = some spk) : r.1.inner.spks.get ki = some spk := by
  unfold KeychainIndex.scanTxout at h
  simp only [] at h
  have hu := KeychainIndex.innerScan_upd s o x
  have hsp : (s.inner.scanTxout o x).1.spks = s.inner.spks := by
    cases hg : s.inner.spkIndices.get x.spk with
    | none => rw [SpkIndex.scanTxout_none hg]
    | some ki => rw [SpkIndex.scanTxout_some hg]
  cases hr : (s.inner.scanTxout o x).2 with
  | none => rw [hr] at h; cases h; rw [← hs]; exact congrArg (·.get ki) hsp
  | some kj =>
    rw [hr] at h
    simp only [Option.map_eq_some_iff] at h
    obtain ⟨r', hr', rfl⟩ := h
    obtain ⟨d, n, n', hk, hc, hle, hc', -, -, -, -, -, -, hother, -⟩ :=
      KeychainIndex.reveal_main hr' (hu.inv hd hi) (KeychainIndex.AllDerivable_congr hu.kc hd)
    have hs' : (s.inner.scanTxout o x).1.spks.get ki = some spk := by rw [hsp]; exact hs
    by_cases hkk : (ofLex ki).1 = (ofLex kj).1
    · have e1 := hc.1 (ofLex ki).2
      have e2 := hc'.1 (ofLex ki).2
      rw [← hkk] at e1 e2
      have hs2 : (s.inner.scanTxout o x).1.spks.get (toLex ((ofLex ki).1, (ofLex ki).2)) = some spk := hs'
      have e1' : (s.inner.scanTxout o x).1.spks.get (toLex ((ofLex ki).1, (ofLex ki).2)) = _ := e1
      rw [e1'] at hs2
      show r'.1.inner.spks.get (toLex ((ofLex ki).1, (ofLex ki).2)) = _
      rw [e2]
      by_cases hlt : (ofLex ki).2 < n
      · rw [if_pos hlt] at hs2
        rw [if_pos (by omega)]; exact hs2
      · rw [if_neg hlt] at hs2; cases hs2
    · exact (hother (ofLex ki).1 (ofLex ki).2 hkk).trans hs'

/-- `scan` records only what it is given -/
theorem scan_recorded {s : KeychainIndex K D} {l : List (OutPoint × TxOut)} {r} (h : s.scan l = some r) (hi : KeychainIndex.Inv s)
    (hd : AllDerivable s) {o : OutPoint} {e} (ho : r.1.inner.txout o = some e) : s.inner.txout o = some e ∨ (o, e.2) ∈ l := by
  induction l generalizing s r with
  | nil => cases h; exact .inl ho
  | cons a l ih =>
    obtain ⟨r1, r2, g1, g2, g3⟩ := KeychainIndex.scan_cons h
    have hu := KeychainIndex.scanTxout_upd g1
    rw [g3] at ho
    rcases ih g2 (hu.inv hd hi) (KeychainIndex.AllDerivable_congr hu.kc hd) ho with h1 | h1
    · by_cases hoa : o = a.1
      · subst hoa
        cases hg : s.inner.spkIndices.get a.2.spk with
        | none =>
          unfold KeychainIndex.scanTxout at g1
          rw [SpkIndex.scanTxout_none hg] at g1
          cases g1
          exact .inl h1
        | some ki =>
          have hs := (hi.hist.spk_iff _ _).2 hg
          obtain ⟨-, -, -, a4⟩ := KeychainIndex.scanTxout_main g1 hi hd
          have := (a4 (ofLex ki).1 (ofLex ki).2 hs).1
          rw [this] at h1
          cases h1
          exact .inr (List.mem_cons_self ..)
      · obtain ⟨-, -, a3, -⟩ := KeychainIndex.scanTxout_main g1 hi hd
        rw [a3 o hoa] at h1
        exact .inl h1
    · exact .inr (List.mem_cons_of_mem _ h1)

/-- `scan` records every output to a script that is stored before the call -/
theorem scan_stored {s : KeychainIndex K D} {l : List (OutPoint × TxOut)} {r} (h : s.scan l = some r) (hi : KeychainIndex.Inv s)
    (hd : AllDerivable s) (hnd : (l.map Prod.fst).Nodup) {o : OutPoint} {x : TxOut} (hm : (o, x) ∈ l) {ki : K ×ₗ Nat}
    (hk : s.inner.indexOfSpk x.spk = some ki) : r.1.inner.txout o = some (ki, x) := by
  induction l generalizing s r with
  | nil => cases hm
  | cons e l ih =>
    obtain ⟨r1, r2, g1, g2, g3⟩ := KeychainIndex.scan_cons h
    have hu := KeychainIndex.scanTxout_upd g1
    obtain ⟨a1, a2, a3, a4⟩ := KeychainIndex.scanTxout_main g1 hi hd
    have hi1 := hu.inv hd hi
    have hd1 := KeychainIndex.AllDerivable_congr hu.kc hd
    have hnd' := List.nodup_cons.1 (by simpa using hnd : (e.1 :: l.map Prod.fst).Nodup)
    have hs := (hi.hist.spk_iff _ _).2 hk
    rw [g3]
    rcases List.mem_cons.1 hm with rfl | hm
    · obtain ⟨c1, c2⟩ := a4 (ofLex ki).1 (ofLex ki).2 hs
      obtain ⟨b1, b2, b3, b4⟩ := KeychainIndex.scan_keeps g2 hi1 hd1
      rw [b3 o (fun y hy => hnd'.1 (List.mem_map.2 ⟨_, hy, rfl⟩))]
      exact c1
    · refine ih g2 hi1 hd1 hnd'.2 hm ?_
      show r1.1.inner.spkIndices.get x.spk = some ki
      rw [← hi1.hist.spk_iff]
      exact scanTxout_spks g1 hi hd hs

end
end Verif.Accounting
