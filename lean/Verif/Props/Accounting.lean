import Verif.Lemmas.Accounting
import Verif.Props.SpkIndex

/-!
# C73: recording a transaction moves exactly its value
-/

set_option linter.unusedSectionVars false

namespace Verif.Props
open Verif Verif.Spec Verif.Accounting

section
variable {K D P T : Type} [LinearOrder K] [DescriptorOps D] [DecidableEq D] [LinearOrder P] [ChainPosition P]
  [LawfulChainPosition P] [AsTransaction T] [LawfulTx T] [LinearOrder T]

/-- without a conflicting transaction nothing is displaced -/
theorem noConflict_displaces {t : Tracker K D P T} {tx : T} (h : NoConflict t tx) (c : Txid) : ¬ DisplacedBy t tx c := by
  rintro ⟨-, hc, hr⟩
  induction hr with
  | start hs =>
    obtain ⟨vin, op, h1, ⟨y, h2, h3, h4⟩, h5⟩ := hs
    exact h5 (h _ y op hc h2 ⟨h3, h4⟩ ⟨List.mem_of_getElem? h1, h4⟩)
  | step _ hp _ ih => exact ih hp

/-- **C73** the unspent outputs after recording a transaction, whether or not it replaces others: the ones it created, and the earlier
outputs of the wallet that are not displaced; each unless the transaction spends it, or another one spends it that is not displaced -/
theorem C73_unspent_after {t t' : Tracker K D P T} (ht : t.Reachable) (hd : AllDerivable t.txoutIndex) {tx : T} {pos : P}
    {o : Orders P T} {cs} (h : t.insertTx tx pos o = some (t', .ok cs)) (so : SpendOrder) (k : K) (i : Nat) (op : OutPoint) (out : TxOut) :
    HasUnspent t' so k i op out ↔
      ¬ Spends (asTx tx) op ∧
      (∀ s y, InChain t.chainGraph.chain s → t.chainGraph.graph.getTx s = some y → Spends (asTx y) op → DisplacedBy t tx s) ∧
      (if op.txid = (asTx tx).txid then
        (∃ x, t'.txoutIndex.inner.txout op = some (toLex (k, i), x)) ∧ (asTx tx).output[op.vout.val]? = some out
      else HasOutput t so k i op out ∧ ¬ DisplacedBy t tx op.txid) := by
  obtain ⟨ht', hin, hgr, ⟨cs0, hsc⟩, -⟩ := insertTx_parts ht hd h
  obtain ⟨hreach, hcg⟩ := tracker_parts ht
  have hinv := ChainGraph.reachable_inv hcg
  have hi := KeychainIndex.reachable_inv hreach hd
  have hidx : ∀ op : OutPoint, op.txid ≠ (asTx tx).txid → t'.txoutIndex.inner.txout op = t.txoutIndex.inner.txout op := by
    intro op hop
    obtain ⟨-, -, h3, -⟩ := KeychainIndex.scan_keeps hsc hi hd
    refine h3 op fun x hx => hop ?_
    cases hg : t.chainGraph.graph.getTx (asTx tx).txid with
    | none =>
      rw [Cli.insertTxPreview_new hg, mem_txouts] at hx
      exact hx.1
    | some y =>
      rw [(C19_insert_existing _ tx (by rw [hg]; simp)).1] at hx
      cases hx
  have hsame : ∀ y, t.chainGraph.graph.getTx (asTx tx).txid = some y → asTx y = asTx tx := by
    intro y hy
    exact LawfulTx.txid_inj y tx (hinv.wf.keys _ y hy)
  have hself : ∃ y, t'.chainGraph.graph.getTx (asTx tx).txid = some y ∧ asTx y = asTx tx := by
    rw [hgr]
    cases hg : t.chainGraph.graph.getTx (asTx tx).txid with
    | none => exact ⟨tx, by simp, rfl⟩
    | some y => exact ⟨y, by simp, hsame y hg⟩
  have hother : ∀ c, c ≠ (asTx tx).txid → t'.chainGraph.graph.getTx c = t.chainGraph.graph.getTx c := by
    intro c hc; rw [hgr, if_neg hc]; simp
  have hold : ∀ c y, t.chainGraph.graph.getTx c = some y → t'.chainGraph.graph.getTx c = some y := by
    intro c y hy; rw [hgr, hy]; rfl
  have hkin : InChain t'.chainGraph.chain (asTx tx).txid := (hin _).2 (.inl rfl)
  rw [unspent_iff ht']
  have hspend : (¬ ∃ s y, InChain t'.chainGraph.chain s ∧ t'.chainGraph.graph.getTx s = some y ∧ Spends (asTx y) op) ↔
      ¬ Spends (asTx tx) op ∧
      (∀ s y, InChain t.chainGraph.chain s → t.chainGraph.graph.getTx s = some y → Spends (asTx y) op → DisplacedBy t tx s) := by
    constructor
    · intro hn
      refine ⟨fun hsp => ?_, fun s y h1 h2 h3 => ?_⟩
      · obtain ⟨y, h1, h2⟩ := hself
        exact hn ⟨_, y, hkin, h1, by rw [h2]; exact hsp⟩
      · by_contra hx
        exact hn ⟨s, y, (hin s).2 (.inr ⟨h1, hx⟩), hold s y h2, h3⟩
    · rintro ⟨h1, h2⟩ ⟨s, y, h3, h4, h5⟩
      by_cases hs : s = (asTx tx).txid
      · subst hs
        obtain ⟨y', e1, e2⟩ := hself
        rw [h4] at e1; cases e1
        rw [e2] at h5
        exact h1 h5
      · rcases (hin s).1 h3 with rfl | ⟨h6, h7⟩
        · exact hs rfl
        · rw [hother s hs] at h4
          exact h7 (h2 s y h6 h4 h5)
  rw [hspend]
  by_cases hop : op.txid = (asTx tx).txid
  · rw [if_pos hop]
    have e1 : InChain t'.chainGraph.chain op.txid := by rw [hop]; exact hkin
    have e2 : (∃ x, t'.chainGraph.graph.getTx op.txid = some x ∧ (asTx x).output[op.vout.val]? = some out) ↔
        (asTx tx).output[op.vout.val]? = some out := by
      obtain ⟨y, g1, g2⟩ := hself
      rw [hop, g1]
      simp [g2]
    rw [e2]
    tauto
  · rw [if_neg hop, output_iff ht, hidx op hop, hother _ hop, hin op.txid]
    tauto

/-! ### sums -/

theorem valueOf_split (l : List ((K × Nat) × FullTxOut P)) (p : OutPoint → Bool) :
    valueOf l = valueOf (l.filter fun e => p e.2.outpoint) + valueOf (l.filter fun e => !p e.2.outpoint) := by
  unfold valueOf
  induction l with
  | nil => rfl
  | cons e l ih =>
    cases hp : p e.2.outpoint <;> simp [hp, ih] <;> omega

/-- two lists of outputs that contain the same ones have the same value -/
theorem valueOf_same {l l' : List ((K × Nat) × FullTxOut P)} (h : (l.map fun e => e.2.outpoint).Nodup)
    (h' : (l'.map fun e => e.2.outpoint).Nodup)
    (hm : ∀ a op out, (∃ f, (a, f) ∈ l ∧ f.outpoint = op ∧ f.txout = out) ↔ ∃ f, (a, f) ∈ l' ∧ f.outpoint = op ∧ f.txout = out) :
    valueOf l = valueOf l' := by
  let g : ((K × Nat) × FullTxOut P) → (K × Nat) × OutPoint × TxOut := fun e => (e.1, e.2.outpoint, e.2.txout)
  have hv : ∀ l : List ((K × Nat) × FullTxOut P), valueOf l = ((l.map g).map fun e => e.2.2.value).sum := by
    intro l; unfold valueOf; rw [List.map_map]; rfl
  have hn : ∀ l : List ((K × Nat) × FullTxOut P), (l.map fun e => e.2.outpoint).Nodup → (l.map g).Nodup := by
    intro l hl
    refine List.Nodup.of_map (fun e => e.2.1) ?_
    rw [List.map_map]; exact hl
  rw [hv, hv]
  refine ((List.perm_ext_iff_of_nodup (hn l h) (hn l' h')).2 ?_).map _ |>.sum_eq
  rintro ⟨a, op, out⟩
  have hg : ∀ l : List ((K × Nat) × FullTxOut P), (a, op, out) ∈ l.map g ↔ ∃ f, (a, f) ∈ l ∧ f.outpoint = op ∧ f.txout = out := by
    intro l
    rw [List.mem_map]
    constructor
    · rintro ⟨⟨b, f⟩, h1, h2⟩
      cases h2
      exact ⟨f, h1, rfl, rfl⟩
    · rintro ⟨f, h1, rfl, rfl⟩
      exact ⟨(a, f), h1, rfl⟩
  rw [hg, hg]
  exact hm a op out

theorem nodup_filter {l : List ((K × Nat) × FullTxOut P)} (h : (l.map fun e => e.2.outpoint).Nodup) (p) :
    ((l.filter p).map fun e => e.2.outpoint).Nodup := h.sublist (List.filter_sublist.map _)

/-- **C73** a transaction that is new to the chain and conflicts with none of it changes the value of the unspent outputs by exactly what
it creates for the wallet minus what it spends of the wallet -/
theorem C73_value {t t' : Tracker K D P T} (ht : t.Reachable) (hd : AllDerivable t.txoutIndex) {tx : T} {pos : P}
    {o : Orders P T} {cs} (h : t.insertTx tx pos o = some (t', .ok cs)) (so : SpendOrder)
    (hnew : ¬ InChain t.chainGraph.chain (asTx tx).txid) (hnc : NoConflict t tx) :
    valueOf (t'.fullUtxos so) + valueOf ((t.fullUtxos so).filter fun e => decide (Spends (asTx tx) e.2.outpoint)) =
    valueOf (t.fullUtxos so) + valueOf ((t'.fullUtxos so).filter fun e => decide (e.2.outpoint.txid = (asTx tx).txid)) := by
  obtain ⟨ht', -⟩ := insertTx_parts ht hd h
  have hk : valueOf ((t'.fullUtxos so).filter fun e => !decide (e.2.outpoint.txid = (asTx tx).txid)) =
      valueOf ((t.fullUtxos so).filter fun e => !decide (Spends (asTx tx) e.2.outpoint)) := by
    refine valueOf_same (nodup_filter (C39_full_utxos t' ht' so).2 _) (nodup_filter (C39_full_utxos t ht so).2 _) ?_
    rintro ⟨k, i⟩ op out
    have e1 : (∃ f, ((k, i), f) ∈ (t'.fullUtxos so).filter (fun e => !decide (e.2.outpoint.txid = (asTx tx).txid)) ∧
        f.outpoint = op ∧ f.txout = out) ↔ HasUnspent t' so k i op out ∧ op.txid ≠ (asTx tx).txid := by
      constructor
      · rintro ⟨f, h1, rfl, rfl⟩
        rw [List.mem_filter] at h1
        exact ⟨⟨f, h1.1, rfl, rfl⟩, by simpa using h1.2⟩
      · rintro ⟨⟨f, h1, rfl, rfl⟩, h2⟩
        exact ⟨f, List.mem_filter.2 ⟨h1, by simpa using h2⟩, rfl, rfl⟩
    have e2 : (∃ f, ((k, i), f) ∈ (t.fullUtxos so).filter (fun e => !decide (Spends (asTx tx) e.2.outpoint)) ∧
        f.outpoint = op ∧ f.txout = out) ↔ HasUnspent t so k i op out ∧ ¬ Spends (asTx tx) op := by
      constructor
      · rintro ⟨f, h1, rfl, rfl⟩
        rw [List.mem_filter] at h1
        exact ⟨⟨f, h1.1, rfl, rfl⟩, by simpa using h1.2⟩
      · rintro ⟨⟨f, h1, rfl, rfl⟩, h2⟩
        exact ⟨f, List.mem_filter.2 ⟨h1, by simpa using h2⟩, rfl, rfl⟩
    rw [e1, e2, C73_unspent_after ht hd h so]
    constructor
    · rintro ⟨⟨h1, h2, h3⟩, h4⟩
      rw [if_neg h4, output_iff ht] at h3
      refine ⟨(unspent_iff ht so k i op out).2 ⟨h3.1.1, h3.1.2.1, h3.1.2.2, ?_⟩, h1⟩
      rintro ⟨s, y, g1, g2, g3⟩
      exact noConflict_displaces hnc _ (h2 s y g1 g2 g3)
    · rintro ⟨h1, h2⟩
      rw [unspent_iff ht] at h1
      have hne : op.txid ≠ (asTx tx).txid := by intro he; rw [he] at h1; exact hnew h1.2.1
      refine ⟨⟨h2, fun s y g1 g2 g3 => (h1.2.2.2 ⟨s, y, g1, g2, g3⟩).elim, ?_⟩, hne⟩
      rw [if_neg hne, output_iff ht]
      exact ⟨⟨h1.1, h1.2.1, h1.2.2.1⟩, noConflict_displaces hnc _⟩
  rw [valueOf_split (t'.fullUtxos so) (fun op => decide (op.txid = (asTx tx).txid)),
    valueOf_split (t.fullUtxos so) (fun op => decide (Spends (asTx tx) op)), hk]
  omega

/-- **C73** recording a transaction that is already in the chain (it got confirmed, or its position changed) changes neither the unspent
outputs nor their value -/
theorem C73_again {t t' : Tracker K D P T} (ht : t.Reachable) (hd : AllDerivable t.txoutIndex) {tx : T} {pos : P}
    {o : Orders P T} {cs} (h : t.insertTx tx pos o = some (t', .ok cs)) (so : SpendOrder)
    (hin : InChain t.chainGraph.chain (asTx tx).txid) :
    (∀ k i op out, HasUnspent t' so k i op out ↔ HasUnspent t so k i op out) ∧
    valueOf (t'.fullUtxos so) = valueOf (t.fullUtxos so) := by
  obtain ⟨ht', -, -, ⟨cs0, hsc⟩, -⟩ := insertTx_parts ht hd h
  obtain ⟨hreach, hcg⟩ := tracker_parts ht
  have hinv := ChainGraph.reachable_inv hcg
  obtain ⟨y, hy⟩ := hinv.full _ hin
  have hsame : asTx y = asTx tx := LawfulTx.txid_inj y tx (hinv.wf.keys _ y hy)
  rw [(C19_insert_existing _ tx (by rw [hy]; simp)).1] at hsc
  have hidx : t'.txoutIndex = t.txoutIndex := (Prod.ext_iff.1 (Option.some.inj hsc)).1.symm
  have hno : ∀ c, ¬ DisplacedBy t tx c := fun c hc => hc.1 hin
  have hmem : ∀ k i op out, HasUnspent t' so k i op out ↔ HasUnspent t so k i op out := by
    intro k i op out
    rw [C73_unspent_after ht hd h so, unspent_iff ht]
    have hs : (¬ Spends (asTx tx) op ∧ ∀ s y, InChain t.chainGraph.chain s → t.chainGraph.graph.getTx s = some y → Spends (asTx y) op →
        DisplacedBy t tx s) ↔ ¬ ∃ s y, InChain t.chainGraph.chain s ∧ t.chainGraph.graph.getTx s = some y ∧ Spends (asTx y) op := by
      constructor
      · rintro ⟨-, h2⟩ ⟨s, z, g1, g2, g3⟩
        exact hno _ (h2 s z g1 g2 g3)
      · intro hn
        exact ⟨fun h1 => hn ⟨_, y, hin, hy, by rw [hsame]; exact h1⟩, fun s z g1 g2 g3 => (hn ⟨s, z, g1, g2, g3⟩).elim⟩
    rw [← hs]
    by_cases hop : op.txid = (asTx tx).txid
    · rw [if_pos hop, hidx, hop, hy]
      simp only [Option.some.injEq, exists_eq_left', hsame, hin, true_and]
      tauto
    · rw [if_neg hop, output_iff ht]
      have := hno op.txid
      tauto
  refine ⟨hmem, valueOf_same (C39_full_utxos t' ht' so).2 (C39_full_utxos t ht so).2 ?_⟩
  rintro ⟨k, i⟩ op out
  exact hmem k i op out

/-! ### the net value of a transaction -/

theorem sent_sum {I : Type} [LinearOrder I] (x : SpkIndex I) (l : List OutPoint) (n : Nat) :
    l.foldl (fun s o => match x.txout o with | some e => s + e.2.value | none => s) n =
      n + ((l.filter fun o => (x.txout o).isSome).map fun o => ((x.txout o).map fun e => e.2.value).getD 0).sum := by
  induction l generalizing n with
  | nil => simp
  | cons o l ih =>
    rw [List.foldl_cons, ih]
    cases hx : x.txout o with
    | none => simp [hx]
    | some e => simp [hx]; omega

theorem received_sum {I : Type} [LinearOrder I] (x : SpkIndex I) (l : List TxOut) (n : Nat) :
    l.foldl (fun r o => if (x.indexOfSpk o.spk).isSome then r + o.value else r) n =
      n + ((l.filter fun o => (x.indexOfSpk o.spk).isSome).map fun o => o.value).sum := by
  induction l generalizing n with
  | nil => simp
  | cons o l ih =>
    rw [List.foldl_cons, ih]
    cases hx : (x.indexOfSpk o.spk).isSome with
    | false => simp [hx]
    | true => simp [hx]; omega

theorem txouts_snd (x : Tx) : x.txouts.map Prod.snd = x.output := by
  unfold Tx.txouts
  rw [List.map_map]
  exact List.zipIdx_map_fst 0 x.output

theorem sum_same {l l' : List (OutPoint × Nat)} (h : (l.map Prod.fst).Nodup) (h' : (l'.map Prod.fst).Nodup)
    (hm : ∀ e, e ∈ l ↔ e ∈ l') : (l.map Prod.snd).sum = (l'.map Prod.snd).sum :=
  (((List.perm_ext_iff_of_nodup (List.Nodup.of_map _ h) (List.Nodup.of_map _ h')).2 hm).map _).sum_eq

/-- **C73** for a transaction the wallet has never seen, whose inputs the wallet knows only as unspent outputs, the value of the unspent
outputs changes by what `sent_and_received` reports -/
theorem C73_sent_and_received {t t' : Tracker K D P T} (ht : t.Reachable) (hd : AllDerivable t.txoutIndex) {tx : T} {pos : P}
    {o : Orders P T} {cs} (h : t.insertTx tx pos o = some (t', .ok cs)) (so : SpendOrder)
    (hnew : t.chainGraph.graph.getTx (asTx tx).txid = none) (hfresh : ∀ v, t.txoutIndex.inner.txout ⟨(asTx tx).txid, v⟩ = none)
    (hnc : NoConflict t tx)
    (hnd : (asTx tx).input.Nodup) (hself : ∀ op ∈ (asTx tx).input, op.txid ≠ (asTx tx).txid)
    (hchild : ∀ s y op, InChain t.chainGraph.chain s → t.chainGraph.graph.getTx s = some y → Spends (asTx y) op →
      op.txid ≠ (asTx tx).txid)
    (hin : ∀ op ∈ (asTx tx).input, ∀ k i x, t.txoutIndex.inner.txout op = some (toLex (k, i), x) →
      op.isNull = false ∧ HasUnspent t so k i op x)
    (hout : ∀ out ∈ (asTx tx).output, (t'.txoutIndex.inner.indexOfSpk out.spk).isSome = true →
      (t.txoutIndex.inner.indexOfSpk out.spk).isSome = true) :
    valueOf (t'.fullUtxos so) + (t.txoutIndex.inner.sentAndReceived (asTx tx)).1 =
      valueOf (t.fullUtxos so) + (t.txoutIndex.inner.sentAndReceived (asTx tx)).2 := by
  obtain ⟨ht', -, -, ⟨cs0, hsc⟩, -⟩ := insertTx_parts ht hd h
  obtain ⟨hreach, hcg⟩ := tracker_parts ht
  have hinv := ChainGraph.reachable_inv hcg
  have hi := KeychainIndex.reachable_inv hreach hd
  have hnewc : ¬ InChain t.chainGraph.chain (asTx tx).txid := by
    intro hx
    obtain ⟨y, hy⟩ := hinv.full _ hx
    rw [hnew] at hy; cases hy
  rw [Cli.insertTxPreview_new hnew] at hsc
  have hi' : KeychainIndex.Inv t'.txoutIndex := by
    obtain ⟨hr', -⟩ := tracker_parts ht'
    obtain ⟨hkc, -⟩ := KeychainIndex.scan_keeps hsc hi hd
    exact KeychainIndex.reachable_inv hr' (KeychainIndex.AllDerivable_congr hkc hd)
  -- what is spent
  have hsent : (t.txoutIndex.inner.sentAndReceived (asTx tx)).1 =
      valueOf ((t.fullUtxos so).filter fun e => decide (Spends (asTx tx) e.2.outpoint)) := by
    refine ((sent_sum t.txoutIndex.inner (asTx tx).input 0).trans (Nat.zero_add _)).trans ?_
    have := sum_same
      (l := ((asTx tx).input.filter fun o => (t.txoutIndex.inner.txout o).isSome).map fun o =>
        (o, ((t.txoutIndex.inner.txout o).map fun e => e.2.value).getD 0))
      (l' := ((t.fullUtxos so).filter fun e => decide (Spends (asTx tx) e.2.outpoint)).map fun e => (e.2.outpoint, e.2.txout.value))
      (by
        rw [List.map_map]
        show List.Nodup (List.map (fun o => o) _)
        rw [List.map_id']
        exact hnd.filter _)
      (by
        rw [List.map_map]
        exact nodup_filter (C39_full_utxos t ht so).2 _)
      (by
        rintro ⟨op, v⟩
        rw [List.mem_map, List.mem_map]
        constructor
        · rintro ⟨op', h1, h2⟩
          cases h2
          rw [List.mem_filter, Option.isSome_iff_exists] at h1
          obtain ⟨h1, ⟨e, he⟩⟩ := h1
          obtain ⟨hn, f, g1, g2, g3⟩ := hin op h1 (ofLex e.1).1 (ofLex e.1).2 e.2 he
          refine ⟨_, List.mem_filter.2 ⟨g1, ?_⟩, ?_⟩
          · rw [decide_eq_true_eq]
            show Spends _ f.outpoint
            rw [g2]; exact ⟨h1, hn⟩
          · rw [he]
            show (f.outpoint, f.txout.value) = (op, e.2.value)
            rw [g2, g3]
        · rintro ⟨⟨⟨k, i⟩, f⟩, h1, h2⟩
          rw [List.mem_filter, decide_eq_true_eq] at h1
          obtain ⟨h1, h3⟩ := h1
          cases h2
          have hu : HasUnspent t so k i f.outpoint f.txout := ⟨f, h1, rfl, rfl⟩
          have hu2 := (unspent_iff ht so k i _ _).1 hu
          obtain ⟨⟨x, hx⟩, -, ⟨y, hy1, hy2⟩, -⟩ := hu2
          obtain ⟨-, hu3⟩ := hin _ h3.1 k i x hx
          obtain ⟨-, -, ⟨y', hy1', hy2'⟩, -⟩ := (unspent_iff ht so k i _ _).1 hu3
          rw [hy1] at hy1'; cases hy1'
          rw [hy2] at hy2'; cases hy2'
          refine ⟨f.outpoint, List.mem_filter.2 ⟨h3.1, by rw [hx]; rfl⟩, ?_⟩
          rw [hx]; rfl)
    rw [List.map_map, List.map_map] at this
    exact this
  -- what is received
  have hrec : (t.txoutIndex.inner.sentAndReceived (asTx tx)).2 =
      valueOf ((t'.fullUtxos so).filter fun e => decide (e.2.outpoint.txid = (asTx tx).txid)) := by
    show List.foldl _ 0 _ = _
    rw [received_sum, Nat.zero_add, ← txouts_snd, List.filter_map, List.map_map]
    have := sum_same
      (l := ((asTx tx).txouts.filter fun e => (t.txoutIndex.inner.indexOfSpk e.2.spk).isSome).map fun e => (e.1, e.2.value))
      (l' := ((t'.fullUtxos so).filter fun e => decide (e.2.outpoint.txid = (asTx tx).txid)).map fun e => (e.2.outpoint, e.2.txout.value))
      (by
        rw [List.map_map]
        exact (Cli.tx_txouts_nodup _).sublist (List.filter_sublist.map _))
      (by
        rw [List.map_map]
        exact nodup_filter (C39_full_utxos t' ht' so).2 _)
      (by
        rintro ⟨op, v⟩
        rw [List.mem_map, List.mem_map]
        constructor
        · rintro ⟨⟨op', x⟩, h1, h2⟩
          obtain ⟨rfl, rfl⟩ := Prod.mk.inj h2
          rw [List.mem_filter, Option.isSome_iff_exists] at h1
          obtain ⟨h1, ⟨ki, hki⟩⟩ := h1
          have hst := scan_stored hsc hi hd (Cli.tx_txouts_nodup _) h1 hki
          obtain ⟨e1, e2⟩ := mem_txouts.1 h1
          have hu : HasUnspent t' so (ofLex ki).1 (ofLex ki).2 op' x := by
            rw [C73_unspent_after ht hd h so, if_pos e1]
            refine ⟨fun hs => hself op' hs.1 e1, fun s y g1 g2 g3 => (hchild s y op' g1 g2 g3 e1).elim, ⟨x, hst⟩, e2⟩
          obtain ⟨f, g1, g2, g3⟩ := hu
          refine ⟨_, List.mem_filter.2 ⟨g1, ?_⟩, ?_⟩
          · rw [decide_eq_true_eq]
            show f.outpoint.txid = _
            rw [g2]; exact e1
          · show (f.outpoint, f.txout.value) = (op', x.value)
            rw [g2, g3]
        · rintro ⟨⟨⟨k, i⟩, f⟩, h1, h2⟩
          rw [List.mem_filter, decide_eq_true_eq] at h1
          obtain ⟨h1, h3⟩ := h1
          cases h2
          have h3 : f.outpoint.txid = (asTx tx).txid := h3
          have hu : HasUnspent t' so k i f.outpoint f.txout := ⟨f, h1, rfl, rfl⟩
          rw [C73_unspent_after ht hd h so, if_pos h3] at hu
          obtain ⟨-, -, ⟨x, hx⟩, hy⟩ := hu
          have hm : (f.outpoint, f.txout) ∈ (asTx tx).txouts := mem_txouts.2 ⟨h3, hy⟩
          have hnone : t.txoutIndex.inner.txout f.outpoint = none := by
            have := hfresh f.outpoint.vout
            rw [← h3] at this; exact this
          have hx2 : x = f.txout := by
            rcases scan_recorded hsc hi hd hx with g | g
            · rw [hnone] at g; cases g
            · have := (mem_txouts.1 g).2
              rw [hy] at this
              exact (Option.some.inj this).symm
          subst hx2
          have hst : (t'.txoutIndex.inner.indexOfSpk f.txout.spk).isSome = true := by
            obtain ⟨hh, e, -⟩ := hi'.hist
            rw [e] at hx ⊢
            obtain hm := (C30_txout_exact hh _ _ _).1 hx
            obtain ⟨h1, h2, e2, hf, -⟩ := hm
            rw [(C30_index_of_spk hh _ _).2 (by rw [e2]; exact SpkIndex.firstIndex_mono hf _)]; rfl
          refine ⟨(f.outpoint, f.txout), List.mem_filter.2 ⟨hm, ?_⟩, rfl⟩
          exact hout _ (by rw [← txouts_snd]; exact List.mem_map.2 ⟨_, hm, rfl⟩) hst)
    rw [List.map_map, List.map_map] at this
    exact this
  rw [hsent, hrec]
  exact C73_value ht hd h so hnewc hnc

/-- **C73** in particular by `net_value`, for amounts that fit an `i64` -/
theorem C73_net_value {t t' : Tracker K D P T} (ht : t.Reachable) (hd : AllDerivable t.txoutIndex) {tx : T} {pos : P}
    {o : Orders P T} {cs} (h : t.insertTx tx pos o = some (t', .ok cs)) (so : SpendOrder)
    (hnew : t.chainGraph.graph.getTx (asTx tx).txid = none) (hfresh : ∀ v, t.txoutIndex.inner.txout ⟨(asTx tx).txid, v⟩ = none)
    (hnc : NoConflict t tx)
    (hnd : (asTx tx).input.Nodup) (hself : ∀ op ∈ (asTx tx).input, op.txid ≠ (asTx tx).txid)
    (hchild : ∀ s y op, InChain t.chainGraph.chain s → t.chainGraph.graph.getTx s = some y → Spends (asTx y) op →
      op.txid ≠ (asTx tx).txid)
    (hin : ∀ op ∈ (asTx tx).input, ∀ k i x, t.txoutIndex.inner.txout op = some (toLex (k, i), x) →
      op.isNull = false ∧ HasUnspent t so k i op x)
    (hout : ∀ out ∈ (asTx tx).output, (t'.txoutIndex.inner.indexOfSpk out.spk).isSome = true →
      (t.txoutIndex.inner.indexOfSpk out.spk).isSome = true)
    (hs : (t.txoutIndex.inner.sentAndReceived (asTx tx)).1 < 2 ^ 63) (hr : (t.txoutIndex.inner.sentAndReceived (asTx tx)).2 < 2 ^ 63) :
    (valueOf (t'.fullUtxos so) : Int) = valueOf (t.fullUtxos so) + t.txoutIndex.inner.netValue (asTx tx) := by
  have e := C73_sent_and_received ht hd h so hnew hfresh hnc hnd hself hchild hin hout
  unfold SpkIndex.netValue SpkIndex.asI64
  simp only [if_pos hs, if_pos hr]
  omega

theorem sumOpt_all (f : OutPoint → Nat) (g : OutPoint → Option TxOut) :
    ∀ l : List OutPoint, (∀ op ∈ l, (g op).map (fun o => (o.value : Int)) = some (f op : Int)) →
      TxGraph.sumOpt (l.map fun i => (g i).map fun o => (o.value : Int)) = some (((l.map f).sum : Nat) : Int)
  | [], _ => rfl
  | op :: l, h => by
    rw [List.map_cons, h op (by simp), TxGraph.sumOpt, sumOpt_all f g l (fun o ho => h o (by simp [ho])), List.map_cons, List.sum_cons]
    simp

theorem filter_split_sum (l : List TxOut) (p : TxOut → Bool) :
    (l.map fun o => (o.value : Int)).sum = (((l.filter p).map fun o => o.value).sum : Nat) + (((l.filter fun o => !p o).map fun o => o.value).sum : Nat) := by
  induction l with
  | nil => rfl
  | cons o l ih => cases hp : p o <;> simp [hp, ih] <;> omega

/-- **C73** a payment from the wallet: when all the inputs are unspent outputs of the wallet, the fee is known, and the wallet's unspent
outputs are worth the fee and the outputs to others less than before -/
theorem C73_payment {t t' : Tracker K D P T} (ht : t.Reachable) (hd : AllDerivable t.txoutIndex) {tx : T} {pos : P}
    {o : Orders P T} {cs} (h : t.insertTx tx pos o = some (t', .ok cs)) (so : SpendOrder)
    (hnew : t.chainGraph.graph.getTx (asTx tx).txid = none) (hfresh : ∀ v, t.txoutIndex.inner.txout ⟨(asTx tx).txid, v⟩ = none)
    (hnd : (asTx tx).input.Nodup)
    (hchild : ∀ s y op, InChain t.chainGraph.chain s → t.chainGraph.graph.getTx s = some y → Spends (asTx y) op →
      op.txid ≠ (asTx tx).txid)
    (hin : ∀ op ∈ (asTx tx).input, op.isNull = false ∧ ∃ k i x, t.txoutIndex.inner.txout op = some (toLex (k, i), x) ∧
      HasUnspent t so k i op x)
    (hout : ∀ out ∈ (asTx tx).output, (t'.txoutIndex.inner.indexOfSpk out.spk).isSome = true →
      (t.txoutIndex.inner.indexOfSpk out.spk).isSome = true) :
    ∃ fee, t.chainGraph.graph.calculateFee (asTx tx) = some fee ∧
      (valueOf (t'.fullUtxos so) : Int) = valueOf (t.fullUtxos so) - fee -
        ((((asTx tx).output.filter fun out => !(t.txoutIndex.inner.indexOfSpk out.spk).isSome).map fun out => out.value).sum : Nat) := by
  have hnewc : ¬ InChain t.chainGraph.chain (asTx tx).txid := by
    intro hx
    obtain ⟨y, hy⟩ := (ChainGraph.reachable_inv (tracker_parts ht).2).full _ hx
    rw [hnew] at hy; cases hy
  have e := C73_sent_and_received ht hd h so hnew hfresh
    (by
      intro c y op h1 h2 h3 h4
      obtain ⟨-, k, i, x, -, hu⟩ := hin op h4.1
      exact (((unspent_iff ht so k i op x).1 hu).2.2.2 ⟨c, y, h1, h2, h3⟩).elim)
    hnd
    (by
      intro op hop he
      obtain ⟨-, k, i, x, -, hu⟩ := hin op hop
      have := ((unspent_iff ht so k i op x).1 hu).2.1
      rw [he] at this
      exact hnewc this)
    hchild
    (by
      intro op hop k i x hx
      obtain ⟨h1, k', i', x', hx', hu⟩ := hin op hop
      rw [hx] at hx'
      cases hx'
      exact ⟨h1, hu⟩)
    hout
  have hcb : (asTx tx).isCoinBase = false := by
    unfold Tx.isCoinBase
    split
    · next op hop => exact (hin op (by rw [hop]; simp)).1
    · rfl
  have hsum := sumOpt_all (fun op => ((t.txoutIndex.inner.txout op).map fun e => e.2.value).getD 0) t.chainGraph.graph.getTxout
    (asTx tx).input (by
      intro op hop
      obtain ⟨-, k, i, x, hx, hu⟩ := hin op hop
      obtain ⟨-, -, ⟨y, g1, g2⟩, -⟩ := (unspent_iff ht so k i op x).1 hu
      rw [TxGraph.getTxout_whole g1, g2, hx]
      rfl)
  have hs : (t.txoutIndex.inner.sentAndReceived (asTx tx)).1 =
      ((asTx tx).input.map fun op => ((t.txoutIndex.inner.txout op).map fun e => e.2.value).getD 0).sum := by
    refine ((sent_sum t.txoutIndex.inner (asTx tx).input 0).trans (Nat.zero_add _)).trans ?_
    congr 1
    congr 1
    rw [List.filter_eq_self]
    intro op hop
    obtain ⟨-, k, i, x, hx, -⟩ := hin op hop
    rw [hx]; rfl
  have hr : (t.txoutIndex.inner.sentAndReceived (asTx tx)).2 = _ :=
    (received_sum t.txoutIndex.inner (asTx tx).output 0).trans (Nat.zero_add _)
  have hsplit := filter_split_sum (asTx tx).output (fun out => (t.txoutIndex.inner.indexOfSpk out.spk).isSome)
  unfold TxGraph.calculateFee
  rw [hcb, hsum]
  refine ⟨_, rfl, ?_⟩
  rw [hsplit]
  rw [hs, hr] at e
  omega

end

/-! ### instances -/

/-- decidable forms of the hypotheses about all transactions of the chain -/
theorem forall_chain_spends {K D P T : Type} [LinearOrder K] [DescriptorOps D] [DecidableEq D] [LinearOrder P] [ChainPosition P]
    [AsTransaction T] [LinearOrder T] (t : Tracker K D P T) (Q : Txid → OutPoint → Bool)
    (h : t.chainGraph.chain.txidToPos.keys.all (fun s => match t.chainGraph.graph.getTx s with
      | some y => (asTx y).input.all fun op => Q s op
      | none => true) = true) :
    ∀ s y op, InChain t.chainGraph.chain s → t.chainGraph.graph.getTx s = some y → Spends (asTx y) op → Q s op = true := by
  intro s y op h1 h2 h3
  obtain ⟨p, hp⟩ := Option.ne_none_iff_exists'.1 h1
  rw [List.all_eq_true] at h
  have := h s (OMap.mem_keys.2 ⟨p, hp⟩)
  rw [h2] at this
  exact List.all_eq_true.1 this op h3.1

open Verif.Cli in
/-- a wallet with one coin of 100000 -/
def acctOps : List (Tracker.Op Keychain TxHeight CliTx) :=
  [.revealNextSpk .external, .revealNextSpk .internal, .insertTx ⟨0⟩ .unconfirmed oC]
open Verif.Cli in
def acctWallet : CliTracker := ((exBase.runFrom acctOps).map Prod.fst).getD exBase
open Verif.Cli in
theorem acctWallet_reachable : acctWallet.Reachable := by
  have h : (exBase.runFrom acctOps).isSome = true := by decide +kernel
  obtain ⟨r, hr⟩ := Option.isSome_iff_exists.1 h
  have : acctWallet = r.1 := by unfold acctWallet; rw [hr]; rfl
  rw [this]
  refine tracker_run_reachable (initTracker_reachable exBase_init) acctOps ?_ hr
  intro op hop
  simp only [acctOps, List.mem_cons, List.not_mem_nil, or_false] at hop
  rcases hop with rfl | rfl | rfl <;> trivial
open Verif.Cli in
/-- the wallet after a payment of 40000 with a fee of 308 and change, and after a conflicting one without change -/
def acctPaid : Option CliTracker := (acctWallet.insertTx ⟨1⟩ .unconfirmed oC).map Prod.fst
open Verif.Cli in
def acctReplaced : Option CliTracker := acctPaid.bind fun t => (t.insertTx ⟨2⟩ .unconfirmed oC).map Prod.fst

open Verif.Cli in
/-- the values of `C73_payment`: 100000 before, fee 308, 40000 to others, 59692 left; the replacement (`C73_unspent_after`) leaves 0 -/
example : valueOf (acctWallet.fullUtxos soId) = 100000 ∧ acctPaid.map (fun t => valueOf (t.fullUtxos soId)) = some 59692 ∧
    acctWallet.chainGraph.graph.calculateFee (cliTx 1) = some 308 ∧
    acctReplaced.map (fun t => valueOf (t.fullUtxos soId)) = some 0 := by decide +kernel

open Verif.Cli in
/-- `C73_payment` (and so `C73_value`, `C73_sent_and_received`): the hypotheses hold for this payment -/
example : ∃ t' cs, acctWallet.insertTx (⟨1⟩ : CliTx) TxHeight.unconfirmed oC = some (t', .ok cs) ∧
    ∃ fee, acctWallet.chainGraph.graph.calculateFee (cliTx 1) = some fee ∧
      (valueOf (t'.fullUtxos soId) : Int) = valueOf (acctWallet.fullUtxos soId) - fee -
        ((((cliTx 1).output.filter fun out => !(acctWallet.txoutIndex.inner.indexOfSpk out.spk).isSome).map fun out => out.value).sum : Nat) := by
  have hex : (match acctWallet.insertTx (⟨1⟩ : CliTx) TxHeight.unconfirmed oC with
      | some (t', .ok _) => (cliTx 1).output.all fun out =>
          !(t'.txoutIndex.inner.indexOfSpk out.spk).isSome || (acctWallet.txoutIndex.inner.indexOfSpk out.spk).isSome
      | _ => false) = true := by decide +kernel
  cases hx : acctWallet.insertTx (⟨1⟩ : CliTx) TxHeight.unconfirmed oC with
  | none => rw [hx] at hex; cases hex
  | some r =>
    obtain ⟨t', e | cs⟩ := r
    · rw [hx] at hex; cases hex
    · rw [hx] at hex
      have hu : ∃ f, ((Keychain.external, 0), f) ∈ acctWallet.fullUtxos soId ∧ f.outpoint = ⟨cliId 0, 0⟩ ∧ f.txout = ⟨100000, 0⟩ := by
        have : ((acctWallet.fullUtxos soId).any fun e => e.1.1 == Keychain.external && e.1.2 == 0 && e.2.outpoint == ⟨cliId 0, 0⟩ &&
          e.2.txout == ⟨100000, 0⟩) = true := by decide +kernel
        rw [List.any_eq_true] at this
        obtain ⟨⟨⟨k, i⟩, f⟩, h1, h2⟩ := this
        simp only [Bool.and_eq_true, beq_iff_eq] at h2
        obtain ⟨⟨⟨rfl, rfl⟩, h3⟩, h4⟩ := h2
        exact ⟨f, h1, h3, h4⟩
      refine ⟨t', cs, rfl, C73_payment acctWallet_reachable ?_ hx soId (by decide +kernel) ?_ (by decide) ?_ ?_ ?_⟩
      · intro k d hk
        exact demo_derivable d
      · intro v
        have : (acctWallet.txoutIndex.inner.txouts.keys.all fun op => decide (op.txid ≠ cliId 1)) = true := by decide +kernel
        cases hv : acctWallet.txoutIndex.inner.txout ⟨cliId 1, v⟩ with
        | none => exact hv
        | some e =>
          rw [List.all_eq_true] at this
          have := this _ (OMap.mem_keys.2 ⟨e, hv⟩)
          simp at this
      · intro s y op h1 h2 h3
        have := forall_chain_spends acctWallet (fun _ op => decide (op.txid ≠ cliId 1)) (by decide +kernel) s y op h1 h2 h3
        exact of_decide_eq_true this
      · intro op hop
        have : op = ⟨cliId 0, 0⟩ := by
          have : op ∈ [(⟨cliId 0, 0⟩ : OutPoint)] := hop
          simpa using this
        subst this
        exact ⟨by decide, .external, 0, ⟨100000, 0⟩, by decide +kernel, hu⟩
      · intro out hm hs
        have := List.all_eq_true.1 hex out hm
        rw [hs] at this
        simpa using this

end Verif.Props
