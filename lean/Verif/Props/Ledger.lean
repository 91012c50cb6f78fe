import Verif.Spec.Ledger
import Verif.Props.Accounting
import Verif.Props.AccountingUpdate
import Verif.Props.Rescan

/-!
# C82: the history of a wallet adds up to its balance
-/

set_option linter.unusedSectionVars false

namespace Verif.Props
open Verif Verif.Spec Verif.Accounting Verif.KeychainIndex

section
variable {K D P T : Type} [LinearOrder K] [DescriptorOps D] [DecidableEq D] [LinearOrder P] [ChainPosition P]
  [LawfulChainPosition P] [AsTransaction T] [LawfulTx T] [LinearOrder T]

/-- the transactions of the chain, listed -/
theorem history_mem {t : Tracker K D P T} (ht : t.Reachable) {txs : List (P × T)}
    (htx : t.chainGraph.transactionsInChain = txs.map some) (p : P) (y : T) :
    (p, y) ∈ txs ↔ t.chainGraph.chain.txPosition (asTx y).txid = some p ∧ t.chainGraph.graph.getTx (asTx y).txid = some y := by
  have hi := ChainGraph.reachable_inv (tracker_parts ht).2
  have hpos := (SparseChain.positionsAgree_of_consistent hi.cons).1
  have : (p, y) ∈ txs ↔ some (p, y) ∈ t.chainGraph.transactionsInChain := by
    rw [htx]; simp
  rw [this]
  unfold ChainGraph.transactionsInChain
  rw [List.mem_map]
  constructor
  · rintro ⟨⟨q, s⟩, h1, h2⟩
    have h3 := (hpos q s).1 h1
    cases hg : t.chainGraph.graph.getTx s with
    | none => rw [hg] at h2; cases h2
    | some x =>
      rw [hg] at h2
      cases h2
      have := hi.wf.keys _ _ hg
      rw [this]
      exact ⟨h3, hg⟩
  · rintro ⟨h1, h2⟩
    exact ⟨(p, (asTx y).txid), (hpos _ _).2 h1, by rw [h2]; rfl⟩

theorem history_nodup {t : Tracker K D P T} (ht : t.Reachable) {txs : List (P × T)}
    (htx : t.chainGraph.transactionsInChain = txs.map some) : (txs.map fun e => (asTx e.2).txid).Nodup := by
  have hi := ChainGraph.reachable_inv (tracker_parts ht).2
  have hpos := (SparseChain.positionsAgree_of_consistent hi.cons).2.2
  have : txs.map (fun e => (asTx e.2).txid) = t.chainGraph.chain.txids.map Prod.snd := by
    have h1 : (txs.map some).map (fun e => e.map fun x => (asTx x.2).txid) =
        t.chainGraph.transactionsInChain.map (fun e => e.map fun x => (asTx x.2).txid) := by rw [htx]
    unfold ChainGraph.transactionsInChain at h1
    rw [List.map_map, List.map_map] at h1
    have h2 : t.chainGraph.chain.txids.map
        ((fun e : Option (P × T) => e.map fun x => (asTx x.2).txid) ∘ fun e => (t.chainGraph.graph.getTx e.2).map (fun x => (e.1, x))) =
        t.chainGraph.chain.txids.map (fun e => some e.2) := by
      refine List.map_congr_left fun e he => ?_
      have hp := ((SparseChain.positionsAgree_of_consistent hi.cons).1 e.1 e.2).1 he
      obtain ⟨x, hx⟩ := hi.full e.2 (by unfold InChain; rw [hp]; simp)
      show Option.map _ (Option.map _ _) = _
      rw [hx]
      exact congrArg some (hi.wf.keys _ _ hx)
    rw [h2] at h1
    have h3 : (txs.map fun e => (asTx e.2).txid).map some = (t.chainGraph.chain.txids.map Prod.snd).map some := by
      rw [List.map_map, List.map_map]; exact h1
    exact (List.map_injective_iff.2 (Option.some_injective _)) h3
  rw [this]
  exact hpos

theorem sum_flatMap {A : Type} (l : List A) (f : A → List (OutPoint × Nat)) :
    ((l.flatMap f).map Prod.snd).sum = (l.map fun a => ((f a).map Prod.snd).sum).sum := by
  induction l with
  | nil => rfl
  | cons a l ih => simp [List.flatMap_cons, ih]

/-- lists without repetition whose elements have nothing in common, put together -/
theorem flatMap_nodup {A : Type} {l : List A} {key : A → Txid} (hk : (l.map key).Nodup) (f : A → List OutPoint)
    (h1 : ∀ a ∈ l, (f a).Nodup) (h2 : ∀ a ∈ l, ∀ b ∈ l, ∀ o, o ∈ f a → o ∈ f b → key a = key b) : (l.flatMap f).Nodup := by
  induction l with
  | nil => exact List.nodup_nil
  | cons a l ih =>
    rw [List.map_cons, List.nodup_cons] at hk
    rw [List.flatMap_cons, List.nodup_append]
    refine ⟨h1 a (List.mem_cons_self ..), ih hk.2 (fun b hb => h1 b (List.mem_cons_of_mem _ hb))
      (fun b hb c hc => h2 b (List.mem_cons_of_mem _ hb) c (List.mem_cons_of_mem _ hc)), ?_⟩
    intro o ho o' ho' heq
    subst heq
    rw [List.mem_flatMap] at ho'
    obtain ⟨b, hb, hb'⟩ := ho'
    exact hk.1 (List.mem_map.2 ⟨b, hb, (h2 a (List.mem_cons_self ..) b (List.mem_cons_of_mem _ hb) o ho hb').symm⟩)

/-- a recorded output pays a known script -/
theorem recorded_known {t : Tracker K D P T} (ht : t.Reachable) (hd : AllDerivable t.txoutIndex) {op : OutPoint} {e}
    (h : t.txoutIndex.inner.txout op = some e) : (t.txoutIndex.inner.indexOfSpk e.2.spk).isSome = true := by
  have hi := KeychainIndex.reachable_inv (tracker_parts ht).1 hd
  obtain ⟨hh, e1, -⟩ := hi.hist
  rw [e1] at h ⊢
  obtain ⟨k, x⟩ := e
  obtain ⟨h1, h2, e2, hf, -⟩ := (C30_txout_exact hh _ _ _).1 h
  rw [(C30_index_of_spk hh _ _).2 (by rw [e2]; exact SpkIndex.firstIndex_mono hf _)]; rfl

/-- **C82** the history adds up: the unspent outputs are worth what the transactions of the chain received minus what they sent,
according to `sent_and_received`, provided that the wallet knows everything it should -/
theorem C82_history_adds_up {t : Tracker K D P T} (ht : t.Reachable) (hd : AllDerivable t.txoutIndex) (so : SpendOrder)
    (h1 : Truthful t) (h2 : AllRecorded t) (h3 : ParentsInChain t) (h4 : DistinctInputs t) {txs : List (P × T)}
    (htx : t.chainGraph.transactionsInChain = txs.map some) :
    valueOf (t.fullUtxos so) + (txs.map fun e => (t.txoutIndex.inner.sentAndReceived (asTx e.2)).1).sum =
      (txs.map fun e => (t.txoutIndex.inner.sentAndReceived (asTx e.2)).2).sum := by
  have hi := ChainGraph.reachable_inv (tracker_parts ht).2
  have hin : ∀ {p y}, (p, y) ∈ txs → InChain t.chainGraph.chain (asTx y).txid ∧ t.chainGraph.graph.getTx (asTx y).txid = some y := by
    intro p y hy
    obtain ⟨a, b⟩ := (history_mem ht htx p y).1 hy
    exact ⟨by unfold InChain; rw [a]; simp, b⟩
  have hof : ∀ {s y}, InChain t.chainGraph.chain s → t.chainGraph.graph.getTx s = some y → (asTx y).txid = s ∧ ∃ p, (p, y) ∈ txs := by
    intro s y hs hy
    have hid := hi.wf.keys _ _ hy
    obtain ⟨p, hp⟩ := Option.ne_none_iff_exists'.1 hs
    refine ⟨hid, p, (history_mem ht htx p y).2 ?_⟩
    rw [hid]; exact ⟨hp, hy⟩
  have hR : (txs.map fun e => (t.txoutIndex.inner.sentAndReceived (asTx e.2)).2).sum =
      ((txs.flatMap fun e => ((asTx e.2).txouts.filter fun o => (t.txoutIndex.inner.indexOfSpk o.2.spk).isSome).map
        fun o => (o.1, o.2.value)).map Prod.snd).sum := by
    rw [sum_flatMap]
    refine congrArg List.sum (List.map_congr_left fun e _ => ?_)
    show List.foldl _ 0 _ = _
    rw [received_sum, Nat.zero_add, ← txouts_snd, List.filter_map, List.map_map, List.map_map]
    rfl
  have hS : (txs.map fun e => (t.txoutIndex.inner.sentAndReceived (asTx e.2)).1).sum =
      ((txs.flatMap fun e => ((asTx e.2).input.filter fun o => (t.txoutIndex.inner.txout o).isSome).map
        fun o => (o, ((t.txoutIndex.inner.txout o).map fun e => e.2.value).getD 0)).map Prod.snd).sum := by
    rw [sum_flatMap]
    refine congrArg List.sum (List.map_congr_left fun e _ => ?_)
    refine ((sent_sum t.txoutIndex.inner (asTx e.2).input 0).trans (Nat.zero_add _)).trans ?_
    rw [List.map_map]; rfl
  have hU : valueOf (t.fullUtxos so) = (((t.fullUtxos so).map fun e => (e.2.outpoint, e.2.txout.value)).map Prod.snd).sum := by
    rw [List.map_map]; rfl
  rw [hR, hS, hU, ← List.sum_append, ← List.map_append]
  have memU : ∀ op v, (op, v) ∈ (t.fullUtxos so).map (fun e => (e.2.outpoint, e.2.txout.value)) ↔
      ∃ k i out, HasUnspent t so k i op out ∧ v = out.value := by
    intro op v
    rw [List.mem_map]
    constructor
    · rintro ⟨⟨⟨k, i⟩, f⟩, g1, g2⟩
      cases g2
      exact ⟨k, i, f.txout, ⟨f, g1, rfl, rfl⟩, rfl⟩
    · rintro ⟨k, i, out, ⟨f, g1, rfl, rfl⟩, rfl⟩
      exact ⟨_, g1, rfl⟩
  have memS : ∀ op v, (op, v) ∈ (txs.flatMap fun e => ((asTx e.2).input.filter fun o => (t.txoutIndex.inner.txout o).isSome).map
        fun o => (o, ((t.txoutIndex.inner.txout o).map fun e => e.2.value).getD 0)) ↔
      ∃ s y e, InChain t.chainGraph.chain s ∧ t.chainGraph.graph.getTx s = some y ∧ op ∈ (asTx y).input ∧
        t.txoutIndex.inner.txout op = some e ∧ v = e.2.value := by
    intro op v
    rw [List.mem_flatMap]
    constructor
    · rintro ⟨⟨p, y⟩, g1, g2⟩
      rw [List.mem_map] at g2
      obtain ⟨o, g3, g4⟩ := g2
      cases g4
      rw [List.mem_filter, Option.isSome_iff_exists] at g3
      obtain ⟨g3, e, he⟩ := g3
      exact ⟨_, y, e, (hin g1).1, (hin g1).2, g3, he, by rw [he]; rfl⟩
    · rintro ⟨s, y, e, g1, g2, g3, g4, rfl⟩
      obtain ⟨-, p, hp⟩ := hof g1 g2
      exact ⟨(p, y), hp, List.mem_map.2 ⟨op, List.mem_filter.2 ⟨g3, by rw [g4]; rfl⟩, by rw [g4]; rfl⟩⟩
  have memR : ∀ op v, (op, v) ∈ (txs.flatMap fun e =>
        ((asTx e.2).txouts.filter fun o => (t.txoutIndex.inner.indexOfSpk o.2.spk).isSome).map fun o => (o.1, o.2.value)) ↔
      ∃ y out, InChain t.chainGraph.chain op.txid ∧ t.chainGraph.graph.getTx op.txid = some y ∧ (asTx y).output[op.vout.val]? = some out ∧
        (t.txoutIndex.inner.indexOfSpk out.spk).isSome = true ∧ v = out.value := by
    intro op v
    rw [List.mem_flatMap]
    constructor
    · rintro ⟨⟨p, y⟩, g1, g2⟩
      rw [List.mem_map] at g2
      obtain ⟨⟨o, out⟩, g3, g4⟩ := g2
      cases g4
      rw [List.mem_filter] at g3
      obtain ⟨g3, g5⟩ := g3
      obtain ⟨e1, e2⟩ := mem_txouts.1 g3
      obtain ⟨a, b⟩ := hin g1
      exact ⟨y, out, by rw [e1]; exact a, by rw [e1]; exact b, e2, g5, rfl⟩
    · rintro ⟨y, out, g1, g2, g3, g4, rfl⟩
      obtain ⟨hid, p, hp⟩ := hof g1 g2
      exact ⟨(p, y), hp, List.mem_map.2 ⟨(op, out), List.mem_filter.2 ⟨mem_txouts.2 ⟨hid.symm, g3⟩, g4⟩, rfl⟩⟩
  refine sum_same ?_ ?_ ?_
  · rw [List.map_append, List.nodup_append]
    refine ⟨?_, ?_, ?_⟩
    · rw [List.map_map]; exact (C39_full_utxos t ht so).2
    · rw [List.map_flatMap]
      refine flatMap_nodup (history_nodup ht htx) _ ?_ ?_
      · rintro ⟨p, y⟩ hy
        rw [List.map_map]
        show (List.map (fun o => o) _).Nodup
        rw [List.map_id']
        exact (h4 _ y (hin hy).1 (hin hy).2).filter _
      · rintro ⟨p, y⟩ hy ⟨q, z⟩ hz o ho ho'
        rw [List.map_map] at ho ho'
        have ho : o ∈ List.map (fun o => o) _ := ho
        have ho' : o ∈ List.map (fun o => o) _ := ho'
        rw [List.map_id', List.mem_filter] at ho ho'
        have hn := (h3 _ y o (hin hy).1 (hin hy).2 ho.1 ho.2).1
        obtain ⟨a1, a2⟩ := (history_mem ht htx p y).1 hy
        obtain ⟨b1, b2⟩ := (history_mem ht htx q z).1 hz
        refine C25_no_double_spend t.chainGraph (tracker_parts ht).2 _ _ p q y z o ?_ ?_ ho.1 ho'.1 hn
        · unfold ChainGraph.getTxInChain; rw [a1, a2]
        · unfold ChainGraph.getTxInChain; rw [b1, b2]
    · intro o ho o' ho' heq
      subst heq
      rw [List.mem_map] at ho ho'
      obtain ⟨⟨o1, v⟩, g1, rfl⟩ := ho
      obtain ⟨⟨o2, w⟩, g2, g3⟩ := ho'
      have g3 : o2 = o1 := g3
      subst g3
      obtain ⟨k, i, out, hu, -⟩ := (memU _ _).1 g1
      obtain ⟨s, y, e, b1, b2, b3, b4, -⟩ := (memS _ _).1 g2
      have := ((unspent_iff ht so k i _ _).1 hu).2.2.2
      exact this ⟨s, y, b1, b2, b3, (h3 s y _ b1 b2 b3 (by rw [b4]; rfl)).1⟩
  · rw [List.map_flatMap]
    refine flatMap_nodup (history_nodup ht htx) _ ?_ ?_
    · rintro ⟨p, y⟩ hy
      rw [List.map_map]
      exact (Cli.tx_txouts_nodup _).sublist (List.filter_sublist.map _)
    · rintro ⟨p, y⟩ hy ⟨q, z⟩ hz o ho ho'
      rw [List.map_map, List.mem_map] at ho ho'
      obtain ⟨⟨o1, x1⟩, g1, rfl⟩ := ho
      obtain ⟨⟨o2, x2⟩, g2, g3⟩ := ho'
      have g3 : o2 = o1 := g3
      subst g3
      exact (mem_txouts.1 (List.mem_filter.1 g1).1).1.symm.trans (mem_txouts.1 (List.mem_filter.1 g2).1).1
  · rintro ⟨op, v⟩
    rw [List.mem_append, memU, memS, memR]
    constructor
    · rintro (⟨k, i, out, hu, rfl⟩ | ⟨s, y, e, b1, b2, b3, b4, rfl⟩)
      · obtain ⟨⟨x, hx⟩, c1, ⟨y, hy, hy2⟩, -⟩ := (unspent_iff ht so k i _ _).1 hu
        have := h1 op _ y hx c1 hy
        rw [hy2] at this
        have hk := recorded_known ht hd hx
        have hxo : out = x := Option.some.inj this
        rw [← hxo] at hk
        exact ⟨y, out, c1, hy, hy2, hk, rfl⟩
      · obtain ⟨-, c1⟩ := h3 s y op b1 b2 b3 (by rw [b4]; rfl)
        obtain ⟨z, hz⟩ := hi.full _ c1
        exact ⟨z, e.2, c1, hz, h1 op e z b4 c1 hz, recorded_known ht hd b4, rfl⟩
    · rintro ⟨y, out, c1, hy, hy2, hk, rfl⟩
      obtain ⟨e, he⟩ := Option.isSome_iff_exists.1 (h2 op out y c1 hy hy2 hk)
      have := h1 op e y he c1 hy
      rw [hy2] at this
      have hxo : out = e.2 := Option.some.inj this
      by_cases hsp : ∃ s y, InChain t.chainGraph.chain s ∧ t.chainGraph.graph.getTx s = some y ∧ Spends (asTx y) op
      · obtain ⟨s, z, b1, b2, b3, -⟩ := hsp
        exact .inr ⟨s, z, e, b1, b2, b3, he, by rw [hxo]⟩
      · exact .inl ⟨(ofLex e.1).1, (ofLex e.1).2, out, (unspent_iff ht so _ _ _ _).2 ⟨⟨e.2, he⟩, c1, ⟨y, hy, hy2⟩, hsp⟩, rfl⟩

/-- **C82** the same with `net_value`, for amounts that fit an `i64` -/
theorem C82_net_values {t : Tracker K D P T} (ht : t.Reachable) (hd : AllDerivable t.txoutIndex) (so : SpendOrder)
    (h1 : Truthful t) (h2 : AllRecorded t) (h3 : ParentsInChain t) (h4 : DistinctInputs t) {txs : List (P × T)}
    (htx : t.chainGraph.transactionsInChain = txs.map some)
    (hs : ∀ e ∈ txs, (t.txoutIndex.inner.sentAndReceived (asTx e.2)).1 < 2 ^ 63 ∧
      (t.txoutIndex.inner.sentAndReceived (asTx e.2)).2 < 2 ^ 63) :
    (valueOf (t.fullUtxos so) : Int) = (txs.map fun e => t.txoutIndex.inner.netValue (asTx e.2)).sum := by
  have h := C82_history_adds_up ht hd so h1 h2 h3 h4 htx
  have key : ∀ l : List (P × T), (∀ e ∈ l, (t.txoutIndex.inner.sentAndReceived (asTx e.2)).1 < 2 ^ 63 ∧
      (t.txoutIndex.inner.sentAndReceived (asTx e.2)).2 < 2 ^ 63) →
      (l.map fun e => t.txoutIndex.inner.netValue (asTx e.2)).sum =
      (((l.map fun e => (t.txoutIndex.inner.sentAndReceived (asTx e.2)).2).sum : Nat) : Int) -
        ((l.map fun e => (t.txoutIndex.inner.sentAndReceived (asTx e.2)).1).sum : Nat) := by
    intro l
    induction l with
    | nil => intro _; rfl
    | cons a l ih =>
      intro hl
      rw [List.map_cons, List.sum_cons, List.map_cons, List.sum_cons, List.map_cons, List.sum_cons,
        ih (fun e he => hl e (List.mem_cons_of_mem _ he))]
      obtain ⟨g1, g2⟩ := hl a (List.mem_cons_self ..)
      have : t.txoutIndex.inner.netValue (asTx a.2) = ((t.txoutIndex.inner.sentAndReceived (asTx a.2)).2 : Int) -
          (t.txoutIndex.inner.sentAndReceived (asTx a.2)).1 := by
        unfold SpkIndex.netValue SpkIndex.asI64
        simp only []
        rewrite [if_pos g1, if_pos g2]
        exact Eq.refl _
      rw [this]
      push_cast
      omega
  rw [key txs hs]
  omega

/-- **C82** inserting a transaction keeps the books: if the wallet has not seen the transaction and nothing conflicts with it, its inputs
are distinct and those that are recorded belong to the chain, and it is not paid (nor is any transaction of the chain) at a script that
only this very call derives, then all the conditions of `C82_history_adds_up` still hold afterwards -/
theorem C82_insertion_keeps_books {t t' : Tracker K D P T} (ht : t.Reachable) (hd : AllDerivable t.txoutIndex) {tx : T} {pos : P}
    {o : Orders P T} {cs} (h : t.insertTx tx pos o = some (t', .ok cs))
    (h1 : Truthful t) (h2 : AllRecorded t) (h3 : ParentsInChain t) (h4 : DistinctInputs t)
    (hnew : t.chainGraph.graph.getTx (asTx tx).txid = none) (hfresh : ∀ v, t.txoutIndex.inner.txout ⟨(asTx tx).txid, v⟩ = none)
    (hid : (asTx tx).txid ≠ 0) (hnc : NoConflict t tx) (hnd : (asTx tx).input.Nodup)
    (hself : ∀ op ∈ (asTx tx).input, op.txid ≠ (asTx tx).txid)
    (hin : ∀ op ∈ (asTx tx).input, (t.txoutIndex.inner.txout op).isSome = true →
      op.isNull = false ∧ InChain t.chainGraph.chain op.txid)
    (hout : ∀ s y out, InChain t'.chainGraph.chain s → t'.chainGraph.graph.getTx s = some y → out ∈ (asTx y).output →
      (t'.txoutIndex.inner.indexOfSpk out.spk).isSome = true → (t.txoutIndex.inner.indexOfSpk out.spk).isSome = true) :
    Truthful t' ∧ AllRecorded t' ∧ ParentsInChain t' ∧ DistinctInputs t' := by
  obtain ⟨ht', hch, hgr, ⟨cs0, hsc⟩, -⟩ := insertTx_parts ht hd h
  have hinv := ChainGraph.reachable_inv (tracker_parts ht).2
  have hi := KeychainIndex.reachable_inv (tracker_parts ht).1 hd
  rw [Cli.insertTxPreview_new hnew] at hsc
  have hch : ∀ c, InChain t'.chainGraph.chain c ↔ c = (asTx tx).txid ∨ InChain t.chainGraph.chain c := by
    intro c
    rw [hch c]
    have := noConflict_displaces hnc c
    tauto
  have hgold : ∀ c, c ≠ (asTx tx).txid → t'.chainGraph.graph.getTx c = t.chainGraph.graph.getTx c := by
    intro c hc
    rw [hgr c, if_neg hc, Option.or_none]
  have hgnew : t'.chainGraph.graph.getTx (asTx tx).txid = some tx := by
    rw [hgr, if_pos rfl, hnew]; rfl
  have hrec : ∀ {op e}, t'.txoutIndex.inner.txout op = some e → (op.txid ≠ (asTx tx).txid ∧ t.txoutIndex.inner.txout op = some e) ∨
      (op.txid = (asTx tx).txid ∧ (asTx tx).output[op.vout.val]? = some e.2) := by
    intro op e he
    rcases scan_recorded hsc hi hd he with g | g
    · refine .inl ⟨fun hc => ?_, g⟩
      have := hfresh op.vout
      rw [← hc] at this
      have g : t.txoutIndex.inner.txout ⟨op.txid, op.vout⟩ = some e := g
      rw [g] at this; cases this
    · exact .inr (mem_txouts.1 g)
  have hkeep : ∀ {op}, (t.txoutIndex.inner.txout op).isSome = true → (t'.txoutIndex.inner.txout op).isSome = true := by
    intro op hop
    rcases (between_scan hd (asTx tx).txouts _ _ (between_start _ hi) (fun _ he => he) hsc).txouts op with g | ⟨x, k, d, i, -, -, -, -, g⟩
    · rw [g]; exact hop
    · rw [g]; rfl
  have hlive : ∀ {c}, InChain t'.chainGraph.chain c → c ≠ (asTx tx).txid → InChain t.chainGraph.chain c := by
    intro c hc hne
    rcases (hch c).1 hc with g | g
    · exact absurd g hne
    · exact g
  refine ⟨?_, ?_, ?_, ?_⟩
  · intro op e x he hc hx
    rcases hrec he with ⟨g1, g2⟩ | ⟨g1, g2⟩
    · rw [hgold _ g1] at hx
      exact h1 op e x g2 (hlive hc g1) hx
    · rw [g1, hgnew] at hx
      cases hx
      exact g2
  · intro op out x hc hx ho hk
    have hm : out ∈ (asTx x).output := List.mem_of_getElem? ho
    have hk' := hout _ x out hc hx hm hk
    by_cases hop : op.txid = (asTx tx).txid
    · rw [hop, hgnew] at hx
      cases hx
      obtain ⟨ki, hki⟩ := Option.isSome_iff_exists.1 hk'
      rw [scan_stored hsc hi hd (Cli.tx_txouts_nodup _) (mem_txouts.2 ⟨hop, ho⟩) hki]; rfl
    · rw [hgold _ hop] at hx
      exact hkeep (h2 op out x (hlive hc hop) hx ho hk')
  · intro s y op hc hy hop hr
    obtain ⟨e, he⟩ := Option.isSome_iff_exists.1 hr
    rcases hrec he with ⟨g1, g2⟩ | ⟨g1, g2⟩
    · by_cases hs : s = (asTx tx).txid
      · rw [hs, hgnew] at hy
        cases hy
        obtain ⟨a, b⟩ := hin op hop (by rw [g2]; rfl)
        exact ⟨a, (hch _).2 (.inr b)⟩
      · rw [hgold _ hs] at hy
        obtain ⟨a, b⟩ := h3 s y op (hlive hc hs) hy hop (by rw [g2]; rfl)
        exact ⟨a, (hch _).2 (.inr b)⟩
    · refine ⟨?_, (hch _).2 (.inl g1)⟩
      unfold OutPoint.isNull
      rw [g1, decide_eq_false hid]; rfl
  · intro s y hc hy
    by_cases hs : s = (asTx tx).txid
    · rw [hs, hgnew] at hy
      cases hy
      exact hnd
    · rw [hgold _ hs] at hy
      exact h4 s y (hlive hc hs) hy

/-- **C82** scanning all outputs of the graph until nothing new is revealed makes the records complete (whatever they were before), and
adds nothing untrue -/
theorem C82_rescan_completes (t : Tracker K D P T) (ht : t.Reachable) (hd : AllDerivable t.txoutIndex) (ho : HashOrder (Txid × TxNode T))
    (s' : KeychainIndex K D) (hs : Scans t.txoutIndex (t.chainGraph.graph.allTxouts ho) s') (r)
    (hr : s'.scan (t.chainGraph.graph.allTxouts ho) = some r) (hq : r.2 = OMap.empty) :
    AllRecorded ({ t with txoutIndex := r.1 } : Tracker K D P T) ∧
    (Truthful t → Truthful ({ t with txoutIndex := r.1 } : Tracker K D P T)) := by
  have hg := C58_all_txouts t.chainGraph.graph ho
  have hl : OneOutput (t.chainGraph.graph.allTxouts ho) := by
    intro o x y h1 h2
    have := (hg.2 o x).1 h1
    rw [(hg.2 o y).1 h2] at this
    exact (Option.some.inj this).symm
  have hout : ∀ {op : OutPoint} {x : T} {out : TxOut}, t.chainGraph.graph.getTx op.txid = some x →
      ((asTx x).output[op.vout.val]? = some out ↔ t.chainGraph.graph.getTxout op = some out) := by
    intro op x out hx
    unfold TxGraph.getTx at hx
    unfold TxGraph.getTxout
    cases hn : t.chainGraph.graph.txs.get op.txid with
    | none => rw [hn] at hx; cases hx
    | some n =>
      rw [hn] at hx
      cases n with
      | whole y => cases hx; exact Iff.rfl
      | partialOuts p => cases hx
  have hi := KeychainIndex.reachable_inv (tracker_parts ht).1 hd
  have hb := between_scan hd _ _ _ (between_scans hi hd hs) (fun _ he => he) hr
  have hdr : AllDerivable r.1 := KeychainIndex.AllDerivable_congr hb.kc hd
  have hc := C81_quiet_is_complete (tracker_parts ht).1 hd _ hl hs r hr hq
  constructor
  · intro op out x h1 h2 h3 h4
    obtain ⟨ki, hki⟩ := Option.isSome_iff_exists.1 h4
    have hki : r.1.inner.spkIndices.get out.spk = some ki := hki
    have hst : stored r.1 (ofLex ki).1 (ofLex ki).2 = some out.spk := (hb.inv.hist.spk_iff _ _).2 hki
    have hw := (hc.1 (ofLex ki).1 (ofLex ki).2).1 (by rw [hst]; simp)
    obtain ⟨d, g1, g2⟩ : ∃ d, t.txoutIndex.keychains.get (ofLex ki).1 = some d ∧ spkAt d (ofLex ki).2 = some out.spk := by
      have hst' : r.1.inner.spks.get (toLex ((ofLex ki).1, (ofLex ki).2)) = some out.spk := hst
      rw [← hb.kc]
      cases hk : r.1.keychains.get (ofLex ki).1 with
      | none => rw [(hb.inv.absent _ hk).1] at hst'; cases hst'
      | some d =>
        obtain ⟨n, hn, -⟩ := hb.inv.contig _ d hk
        rw [hn] at hst'
        by_cases hlt : (ofLex ki).2 < n
        · rw [if_pos hlt] at hst'; exact ⟨d, rfl, hst'⟩
        · rw [if_neg hlt] at hst'; cases hst'
    have := (hc.2 op out _ d _ ((hg.2 op out).2 ((hout h2).1 h3)) g1 g2 hw).1
    show (r.1.inner.txout op).isSome = true
    rw [this]; rfl
  · intro htr op e x h1 h2 h3
    rcases hb.txouts op with g | ⟨y, k, d, i, g1, -, -, -, g2⟩
    · exact htr op e x (by rw [← g]; exact h1) h2 h3
    · have h1 : r.1.inner.txout op = some e := h1
      rw [g2] at h1
      cases h1
      exact (hout h3).2 ((hg.2 _ _).1 g1)

/-! ### deciding the conditions for a concrete wallet -/

def chainAll (t : Tracker K D P T) (f : T → Bool) : Bool :=
  t.chainGraph.chain.txids.all fun e => match t.chainGraph.graph.getTx e.2 with | some x => f x | none => true

theorem chainAll_of {t : Tracker K D P T} (ht : t.Reachable) {f : T → Bool} (h : chainAll t f = true) {s : Txid} {x : T}
    (hs : InChain t.chainGraph.chain s) (hx : t.chainGraph.graph.getTx s = some x) : f x = true := by
  have hi := ChainGraph.reachable_inv (tracker_parts ht).2
  obtain ⟨p, hp⟩ := Option.ne_none_iff_exists'.1 hs
  unfold chainAll at h
  rw [List.all_eq_true] at h
  have := h (p, s) (((SparseChain.positionsAgree_of_consistent hi.cons).1 p s).2 hp)
  rw [hx] at this
  exact this

def truthB (t : Tracker K D P T) : Bool :=
  t.txoutIndex.inner.txouts.entries.all fun e => match t.chainGraph.graph.getTx e.1.txid with
    | some x => (asTx x).output[e.1.vout.val]? == some e.2.2 | none => true
def recordedB (t : Tracker K D P T) : Bool :=
  chainAll t (fun x => (asTx x).txouts.all fun o => !(t.txoutIndex.inner.indexOfSpk o.2.spk).isSome || (t.txoutIndex.inner.txout o.1).isSome)
def parentsB (t : Tracker K D P T) : Bool :=
  chainAll t (fun x => (asTx x).input.all fun o => !(t.txoutIndex.inner.txout o).isSome ||
    (!o.isNull && (t.chainGraph.chain.txPosition o.txid).isSome))
def distinctB (t : Tracker K D P T) : Bool := chainAll t (fun x => decide (asTx x).input.Nodup)

theorem truthful_of {t : Tracker K D P T} (h : truthB t = true) : Truthful t := by
  intro op e x he hc hx
  unfold truthB at h
  rw [List.all_eq_true] at h
  have := h (op, e) (OMap.mem_entries.2 he)
  simp only [hx] at this
  exact beq_iff_eq.1 this

theorem recorded_of {t : Tracker K D P T} (ht : t.Reachable) (h : recordedB t = true) : AllRecorded t := by
  have hi := ChainGraph.reachable_inv (tracker_parts ht).2
  intro op out x hc hx ho hk
  have := chainAll_of ht h hc hx
  rw [List.all_eq_true] at this
  have := this (op, out) (mem_txouts.2 ⟨(hi.wf.keys _ _ hx).symm, ho⟩)
  simp only [hk, Bool.not_true, Bool.false_or] at this
  exact this

theorem parents_of {t : Tracker K D P T} (ht : t.Reachable) (h : parentsB t = true) : ParentsInChain t := by
  intro s y op hc hy hop hr
  have := chainAll_of ht h hc hy
  rw [List.all_eq_true] at this
  have := this op hop
  rw [hr, Bool.not_true, Bool.false_or, Bool.and_eq_true, Bool.not_eq_true'] at this
  exact ⟨this.1, by unfold InChain; exact Option.isSome_iff_ne_none.1 this.2⟩

theorem distinct_of {t : Tracker K D P T} (ht : t.Reachable) (h : distinctB t = true) : DistinctInputs t := by
  intro s y hc hy
  exact of_decide_eq_true (chainAll_of ht h hc hy)

end

/-- `C82_history_adds_up` and `C82_net_values`: the example wallet with five transactions, one of which spends an output of the wallet -/
example : ∃ txs, exTr.chainGraph.transactionsInChain = List.map some txs ∧ txs.length = 5 ∧
    (txs.map fun e => (exTr.txoutIndex.inner.sentAndReceived (asTx e.2)).1).sum = 18 ∧
    (txs.map fun e => (exTr.txoutIndex.inner.sentAndReceived (asTx e.2)).2).sum = 159 ∧ valueOf (exTr.fullUtxos soId) = 141 ∧
    exTr.Reachable ∧ AllDerivable exTr.txoutIndex ∧ Truthful exTr ∧ AllRecorded exTr ∧ ParentsInChain exTr ∧ DistinctInputs exTr := by
  have h : exTr.chainGraph.transactionsInChain = List.map some (exTr.chainGraph.transactionsInChain.filterMap id) := by decide +kernel
  exact ⟨_, h, by decide +kernel, by decide +kernel, by decide +kernel, by decide +kernel, exTr_reachable, demo_allDerivable _,
    truthful_of (by decide +kernel), recorded_of exTr_reachable (by decide +kernel), parents_of exTr_reachable (by decide +kernel),
    distinct_of exTr_reachable (by decide +kernel)⟩

/-- `C82_insertion_keeps_books`: the wallet with one coin of 100000 pays 40000, and the history still adds up -/
example : ∃ t' cs, acctWallet.insertTx (⟨1⟩ : Cli.CliTx) TxHeight.unconfirmed Cli.oC = some (t', .ok cs) ∧
    Truthful t' ∧ AllRecorded t' ∧ ParentsInChain t' ∧ DistinctInputs t' := by
  have hex : (match acctWallet.insertTx (⟨1⟩ : Cli.CliTx) TxHeight.unconfirmed Cli.oC with
      | some (t', .ok _) => chainAll t' fun x => (asTx x).output.all fun out =>
          !(t'.txoutIndex.inner.indexOfSpk out.spk).isSome || (acctWallet.txoutIndex.inner.indexOfSpk out.spk).isSome
      | _ => false) = true := by decide +kernel
  have hder : AllDerivable acctWallet.txoutIndex := fun k d _ => demo_derivable d
  cases hx : acctWallet.insertTx (⟨1⟩ : Cli.CliTx) TxHeight.unconfirmed Cli.oC with
  | none => rw [hx] at hex; cases hex
  | some r =>
    obtain ⟨t', e | cs⟩ := r
    · rw [hx] at hex; cases hex
    · rw [hx] at hex
      have hr := (insertTx_parts acctWallet_reachable hder hx).1
      refine ⟨t', cs, rfl, C82_insertion_keeps_books acctWallet_reachable hder hx (truthful_of (by decide +kernel))
        (recorded_of acctWallet_reachable (by decide +kernel)) (parents_of acctWallet_reachable (by decide +kernel))
        (distinct_of acctWallet_reachable (by decide +kernel)) (by decide +kernel) ?_ (by decide) ?_ (by decide) (by decide) ?_ ?_⟩
      · intro v
        have : (acctWallet.txoutIndex.inner.txouts.keys.all fun op => decide (op.txid ≠ Cli.cliId 1)) = true := by decide +kernel
        cases hv : acctWallet.txoutIndex.inner.txout ⟨Cli.cliId 1, v⟩ with
        | none => exact hv
        | some e =>
          rw [List.all_eq_true] at this
          have := this _ (OMap.mem_keys.2 ⟨e, hv⟩)
          simp at this
      · intro c y op h1 h2 h3 h4
        have : chainAll acctWallet (fun x => (asTx x).input.all fun o => !decide (o ∈ (asTx (⟨1⟩ : Cli.CliTx)).input)) = true := by
          decide +kernel
        have := chainAll_of acctWallet_reachable this h1 h2
        rw [List.all_eq_true] at this
        have := this op h3.1
        rw [decide_eq_true h4.1] at this
        cases this
      · intro op hop hrec
        have : ((asTx (⟨1⟩ : Cli.CliTx)).input.all fun o => !o.isNull && (acctWallet.chainGraph.chain.txPosition o.txid).isSome) = true := by
          decide +kernel
        rw [List.all_eq_true] at this
        have := this op hop
        rw [Bool.and_eq_true, Bool.not_eq_true'] at this
        exact ⟨this.1, by unfold InChain; exact Option.isSome_iff_ne_none.1 this.2⟩
      · intro s y out h1 h2 h3 h4
        have := chainAll_of hr hex h1 h2
        rw [List.all_eq_true] at this
        have := this out h3
        rw [h4, Bool.not_true, Bool.false_or] at this
        exact this

/-- **C82** without `ParentsInChain` it is false: 1 pays the wallet 30 and is evicted by 2; then 4, which spends those 30, is accepted.
The history says 45 and 40 - 30, the balance is 85. -/
theorem C82_evicted_parent : ∃ t : DemoTracker, t.Reachable ∧ Truthful t ∧ AllRecorded t ∧ DistinctInputs t ∧
    ∃ txs, t.chainGraph.transactionsInChain = List.map some txs ∧ valueOf (t.fullUtxos soId) = 85 ∧
      (txs.map fun e => t.txoutIndex.inner.netValue (asTx e.2)).sum = 55 := by
  have h1 : (exFresh.runFrom [.insertTx (d 1) .unconfirmed oId, .insertTx (d 2) .unconfirmed oId, .insertTx (d 4) .unconfirmed oId]).isSome =
    true := by decide +kernel
  have h2 : ∀ r ∈ exFresh.runFrom [.insertTx (d 1) .unconfirmed oId, .insertTx (d 2) .unconfirmed oId, .insertTx (d 4) .unconfirmed oId],
      truthB r.1 = true ∧ recordedB r.1 = true ∧ distinctB r.1 = true ∧
      r.1.chainGraph.transactionsInChain = List.map some (r.1.chainGraph.transactionsInChain.filterMap id) ∧
      valueOf (r.1.fullUtxos soId) = 85 ∧
      ((r.1.chainGraph.transactionsInChain.filterMap id).map fun e => r.1.txoutIndex.inner.netValue (asTx e.2)).sum = 55 := by decide +kernel
  obtain ⟨r, hr⟩ := Option.isSome_iff_exists.1 h1
  obtain ⟨a1, a2, a3, a4, a5, a6⟩ := h2 r hr
  have hre : r.1.Reachable := tracker_run_reachable exFresh_reachable _ (by
    intro op hop
    simp only [List.mem_cons, List.not_mem_nil, or_false] at hop
    rcases hop with rfl | rfl | rfl <;> trivial) hr
  exact ⟨r.1, hre, truthful_of a1, recorded_of hre a2, distinct_of hre a3, _, a4, a5, a6⟩

/-- **C82** without `AllRecorded` it is false: the script is derived after the transaction that pays to it arrived.  The history says 44,
the balance is 0. -/
theorem C82_late_reveal : ∃ t : DemoTracker, t.Reachable ∧ Truthful t ∧ ParentsInChain t ∧ DistinctInputs t ∧
    ∃ txs, t.chainGraph.transactionsInChain = List.map some txs ∧ valueOf (t.fullUtxos soId) = 0 ∧
      (txs.map fun e => t.txoutIndex.inner.netValue (asTx e.2)).sum = 44 := by
  have h1 : (exFresh.runFrom [.insertTx (d 6) .unconfirmed oId, .revealToTarget 1 2]).isSome = true := by decide +kernel
  have h2 : ∀ r ∈ exFresh.runFrom [.insertTx (d 6) .unconfirmed oId, .revealToTarget 1 2],
      truthB r.1 = true ∧ parentsB r.1 = true ∧ distinctB r.1 = true ∧
      r.1.chainGraph.transactionsInChain = List.map some (r.1.chainGraph.transactionsInChain.filterMap id) ∧
      valueOf (r.1.fullUtxos soId) = 0 ∧
      ((r.1.chainGraph.transactionsInChain.filterMap id).map fun e => r.1.txoutIndex.inner.netValue (asTx e.2)).sum = 44 := by decide +kernel
  obtain ⟨r, hr⟩ := Option.isSome_iff_exists.1 h1
  obtain ⟨a1, a2, a3, a4, a5, a6⟩ := h2 r hr
  have hre : r.1.Reachable := tracker_run_reachable exFresh_reachable _ (by
    intro op hop
    simp only [List.mem_cons, List.not_mem_nil, or_false] at hop
    rcases hop with rfl | rfl <;> trivial) hr
  exact ⟨r.1, hre, truthful_of a1, parents_of hre a2, distinct_of hre a3, _, a4, a5, a6⟩

/-- `C82_rescan_completes` repairs it: one scan of the outputs of the graph reveals nothing further, and the history adds up -/
example : ∃ r r2, exFresh.runFrom [.insertTx (d 6) .unconfirmed oId, .revealToTarget 1 2] = some r ∧
    r.1.txoutIndex.scan (r.1.chainGraph.graph.allTxouts (HashOrder.id _)) = some r2 ∧ r2.2 = OMap.empty ∧
    valueOf (({ r.1 with txoutIndex := r2.1 } : DemoTracker).fullUtxos soId) = 44 := by
  have h1 : ((exFresh.runFrom [.insertTx (d 6) .unconfirmed oId, .revealToTarget 1 2]).bind fun r =>
    r.1.txoutIndex.scan (r.1.chainGraph.graph.allTxouts (HashOrder.id _))).isSome = true := by decide +kernel
  have h2 : ∀ r ∈ exFresh.runFrom [.insertTx (d 6) .unconfirmed oId, .revealToTarget 1 2],
      ∀ r2 ∈ r.1.txoutIndex.scan (r.1.chainGraph.graph.allTxouts (HashOrder.id _)), r2.2 = OMap.empty ∧
      valueOf (({ r.1 with txoutIndex := r2.1 } : DemoTracker).fullUtxos soId) = 44 := by decide +kernel
  obtain ⟨r2, hr2⟩ := Option.isSome_iff_exists.1 h1
  obtain ⟨r, hr, hr3⟩ := Option.bind_eq_some_iff.1 hr2
  exact ⟨r, r2, hr, hr3, h2 r hr r2 hr3⟩

end Verif.Props
