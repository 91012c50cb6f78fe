import Verif.Lemmas.Quiet
import Verif.Lemmas.Pruned
import Verif.Props.Devices
import Verif.Props.Accounting

/-!
# C80 Only transactions move money

Revealing, looking ahead, reserving, marking, adding keychains, adding checkpoints and limiting them change neither the outputs a wallet
reports nor what is spent; a new block can only let coinbase outputs mature.
-/

namespace Verif.Props
open Verif Verif.Spec

section
variable {K D P T : Type} [LinearOrder K] [DescriptorOps D] [DecidableEq D] [LinearOrder P] [ChainPosition P] [LawfulChainPosition P]
  [LinearOrder T] [AsTransaction T] [LawfulTx T]

/-- the wallet reports the same outputs, in the same order, the same of them as unspent, and the same spendable value at every height -/
def SameMoney (t t' : Tracker K D P T) : Prop :=
  (∀ so, t'.fullTxouts so = t.fullTxouts so) ∧ (∀ so, t'.fullUtxos so = t.fullUtxos so) ∧
  (∀ so height, t'.balanceAt so height = t.balanceAt so height)

omit [DescriptorOps D] [DecidableEq D] [LawfulChainPosition P] [LinearOrder T] [LawfulTx T] in
theorem SameMoney.trans {a b c : Tracker K D P T} (h : SameMoney a b) (h' : SameMoney b c) : SameMoney a c :=
  ⟨fun so => (h'.1 so).trans (h.1 so), fun so => (h'.2.1 so).trans (h.2.1 so), fun so x => (h'.2.2 so x).trans (h.2.2 so x)⟩

omit [DescriptorOps D] [DecidableEq D] [LawfulChainPosition P] [LinearOrder T] [LawfulTx T] in
theorem sameMoney_of {t t' : Tracker K D P T} (h1 : t'.txoutIndex.inner.spkTxouts = t.txoutIndex.inner.spkTxouts)
    (h2 : t'.txoutIndex.inner.txouts = t.txoutIndex.inner.txouts) (h3 : t'.chainGraph.graph = t.chainGraph.graph)
    (h4 : ∀ x, t'.chainGraph.chain.txPosition x = t.chainGraph.chain.txPosition x) : SameMoney t t' := by
  have e0 : ∀ so o, t'.chainGraph.fullTxout so o = t.chainGraph.fullTxout so o := by
    intro so o
    unfold ChainGraph.fullTxout SparseChain.fullTxout SparseChain.spentBy
    simp only [h3, h4]
  have e1 : ∀ so, t'.fullTxouts so = t.fullTxouts so := by
    intro so
    have hall : t'.txoutIndex.inner.allTxouts = t.txoutIndex.inner.allTxouts := by
      unfold SpkIndex.allTxouts; rw [h2]
    unfold Tracker.fullTxouts
    simp only [e0, hall]
  exact ⟨e1, fun so => by unfold Tracker.fullUtxos; rw [e1], fun so x => by unfold Tracker.balanceAt; rw [e1]⟩

omit [LawfulChainPosition P] [LinearOrder T] [LawfulTx T] in
/-- **C80** no call of the keychain index other than scanning changes the reported outputs or the balance: adding keychains, looking
ahead, revealing, reserving, marking and unmarking -/
theorem C80_index_call (t : Tracker K D P T) (op : KeychainIndex.Op K D) (hop : op.scansNothing = true) {r}
    (h : t.txoutIndex.step op = some r) :
    SameMoney t { t with txoutIndex := r.1 } ∧ ∀ so trust, ({ t with txoutIndex := r.1 } : Tracker K D P T).balance so trust = t.balance so trust := by
  have hr := KeychainIndex.step_record hop h
  have hm : SameMoney t { t with txoutIndex := r.1 } := sameMoney_of hr.2 hr.1 rfl (fun _ => rfl)
  refine ⟨hm, fun so trust => ?_⟩
  unfold Tracker.balance
  rw [hm.2.1]

omit [LawfulChainPosition P] [LinearOrder T] [LawfulTx T] in
/-- **C80** nor does any sequence of them -/
theorem C80_index_calls (t : Tracker K D P T) (ops : List (KeychainIndex.Op K D)) (hops : ∀ op ∈ ops, op.scansNothing = true) {r}
    (h : t.txoutIndex.runFrom ops = some r) :
    SameMoney t { t with txoutIndex := r.1 } ∧ ∀ so trust, ({ t with txoutIndex := r.1 } : Tracker K D P T).balance so trust = t.balance so trust := by
  induction ops generalizing t r with
  | nil => cases h; exact ⟨⟨fun _ => rfl, fun _ => rfl, fun _ _ => rfl⟩, fun _ _ => rfl⟩
  | cons op l ih =>
    obtain ⟨r1, h1, h2⟩ := Option.bind_eq_some_iff.1 h
    obtain ⟨r2, h3, h4⟩ := Option.bind_eq_some_iff.1 h2
    cases h4
    have a := C80_index_call t op (hops op List.mem_cons_self) h1
    have b := ih { t with txoutIndex := r1.1 } (fun o ho => hops o (List.mem_cons_of_mem _ ho)) h3
    exact ⟨a.1.trans b.1, fun so trust => (b.2 so trust).trans (a.2 so trust)⟩

end

section
variable {K D P T : Type} [LinearOrder K] [DescriptorOps D] [DecidableEq D] [LinearOrder P] [ChainPosition P] [LawfulChainPosition P]
  [LinearOrder T] [AsTransaction T] [LawfulTx T]

omit [LawfulChainPosition P] [LinearOrder T] [LawfulTx T] in
/-- adding an empty changeset of indices and outputs -/
theorem apply_chain_only [LinearOrder T] (t : Tracker K D P T) (cs : ChangeSet P) :
    t.applyChangeset (.ofChainGraph ⟨cs, Additions.empty⟩) =
      some ⟨t.txoutIndex, t.chainGraph.applyChangeset ⟨cs, Additions.empty⟩⟩ := rfl

/-- pruning keeps the tip -/
theorem prune_latest (m : SparseChain P) (hl : m.checkpointLimit ≠ some 0) : m.pruneCheckpoints.latestCheckpoint = m.latestCheckpoint := by
  cases hn : m.checkpointLimit with
  | none => rw [SparseChain.prune_none m hn]
  | some n =>
    have hpos : n ≠ 0 := fun h => hl (by rw [hn, h])
    cases ht : m.latestCheckpoint with
    | none =>
      rw [SparseChain.latest_none] at ht ⊢
      intro h
      cases hx : m.pruneCheckpoints.checkpoints.get h with
      | none => rfl
      | some x => have := SparseChain.prune_cp_sub m hx; rw [ht] at this; cases this
    | some b =>
      obtain ⟨g1, g2⟩ := SparseChain.latest_eq.1 ht
      have h0 : cpsAbove m b.height = 0 := by
        unfold cpsAbove
        rw [List.length_eq_zero_iff, List.filter_eq_nil_iff]
        intro k hk
        obtain ⟨x, hx⟩ := OMap.mem_keys.1 hk
        simpa using g2 k x hx
      refine SparseChain.latest_eq.2 ⟨?_, fun h x hx => g2 h x (SparseChain.prune_cp_sub m hx)⟩
      rw [SparseChain.prune_get hn, if_pos (by omega)]
      exact g1

/-- the highest checkpoint only rises when a checkpoint is put in -/
theorem tip_after (c : SparseChain P) (hl : c.checkpointLimit ≠ some 0) (cs : ChangeSet P)
    (hcs : ∀ k x, c.checkpoints.get k = some x → SparseChain.overlay cs.checkpoints c.checkpoints k ≠ none) :
    (c.latestCheckpoint.map BlockId.height).getD 0 ≤ ((c.applyChangeset cs).latestCheckpoint.map BlockId.height).getD 0 := by
  cases hb : c.latestCheckpoint with
  | none => exact Nat.zero_le _
  | some b =>
    obtain ⟨g1, -⟩ := SparseChain.latest_eq.1 hb
    obtain ⟨m, e, hlim, hm⟩ := SparseChain.applyChangeset_cps c cs
    rw [e, prune_latest m (by rw [hlim]; exact hl)]
    have h1 := hcs _ _ g1
    rw [← hm] at h1
    obtain ⟨x, hx⟩ := Option.ne_none_iff_exists'.1 h1
    cases hb' : m.latestCheckpoint with
    | none => rw [SparseChain.latest_none.1 hb' b.height] at hx; cases hx
    | some b' => exact (SparseChain.latest_eq.1 hb').2 _ _ hx

omit [LawfulChainPosition P] in
/-- a later tip can only let outputs mature -/
theorem bucket_later {tip tip' : Nat} (h : tip ≤ tip') (trust : K → Bool) (k : K) (f : FullTxOut P) :
    bucketOf tip' trust k f = bucketOf tip trust k f ∨ (bucketOf tip trust k f = .immature ∧ bucketOf tip' trust k f = .confirmed) := by
  unfold bucketOf
  split
  · cases f.isOnCoinbase with
    | false => simp
    | true =>
      simp only [Bool.true_and, decide_eq_true_eq]
      split_ifs with h1 h2 h2 <;> simp
      omega
  · simp

omit [LawfulChainPosition P] [DecidableEq D] [LinearOrder K] [DescriptorOps D] [AsTransaction T] [LinearOrder T] [LawfulTx T] in
theorem valueOf_filter_le {p q : (K × Nat) × FullTxOut P → Bool} (h : ∀ e, p e = true → q e = true) :
    ∀ l : List ((K × Nat) × FullTxOut P), valueOf (l.filter p) ≤ valueOf (l.filter q)
  | [] => le_refl _
  | e :: l => by
    have ih := valueOf_filter_le h l
    unfold valueOf at ih ⊢
    simp only [List.filter_cons]
    by_cases hp : p e = true
    · rw [if_pos hp, if_pos (h e hp), List.map_cons, List.map_cons, List.sum_cons, List.sum_cons]; omega
    · rw [if_neg hp]
      split
      · rw [List.map_cons, List.sum_cons]; omega
      · exact ih

/-- **C80** adding a checkpoint to a wallet never panics and changes none of the reported outputs, spent or unspent.  The pending amounts
stay, and what leaves the immature amount joins the confirmed one: coinbase outputs can mature, nothing else happens -/
theorem C80_insert_checkpoint (t : Tracker K D P T) (ht : t.Reachable) (hok : HeightsOk t.chainGraph.chain) (b : BlockId) (o : Orders P T) :
    ∃ t' r, t.insertCheckpoint b o = some (t', r) ∧ SameMoney t t' ∧ t'.txoutIndex = t.txoutIndex ∧
    (t.chainGraph.chain.checkpointLimit ≠ some 0 → ∀ so trust B B', t.balance so trust = some B → t'.balance so trust = some B' →
      B'.trustedPending = B.trustedPending ∧ B'.untrustedPending = B.untrustedPending ∧ B'.immature ≤ B.immature ∧
      B'.immature + B'.confirmed = B.immature + B.confirmed) := by
  have hi := ChainGraph.reachable_inv (tracker_parts ht).2
  have hcases := insertCheckpointPreview_cases t.chainGraph.chain hok hi.cons b o.chain
  have hbal : ∀ t' : Tracker K D P T, SameMoney t t' → tipOf t ≤ tipOf t' → ∀ so trust B B', t.balance so trust = some B →
      t'.balance so trust = some B' → B'.trustedPending = B.trustedPending ∧ B'.untrustedPending = B.untrustedPending ∧
      B'.immature ≤ B.immature ∧ B'.immature + B'.confirmed = B.immature + B.confirmed := by
    intro t' hm htip so trust B B' hB hB'
    have h1 := C39_buckets t so trust B hB
    have h2 := C39_buckets t' so trust B' hB'
    rw [hm.2.1] at h2
    have hsame : ∀ β : Bucket, β ≠ .immature → β ≠ .confirmed → Balance.at B' β = Balance.at B β := by
      intro β n1 n2
      rw [h1, h2]
      refine congrArg valueOf (List.filter_congr fun e _ => decide_eq_decide.2 ?_)
      rcases bucket_later htip trust e.1.1 e.2 with h | ⟨h, h'⟩
      · rw [h]
      · rw [h, h']
        exact ⟨fun h => absurd h.symm n2, fun h => absurd h.symm n1⟩
    have him : B'.immature ≤ B.immature := by
      have a : B.immature = _ := h1 .immature
      have b : B'.immature = _ := h2 .immature
      rw [a, b]
      refine valueOf_filter_le (fun e he => ?_) _
      rw [decide_eq_true_eq] at he ⊢
      rcases bucket_later htip trust e.1.1 e.2 with h | ⟨h, h'⟩
      · rw [← h]; exact he
      · exact h
    have p1 := C39_partition t so trust B hB
    have p2 := C39_partition t' so trust B' hB'
    rw [hm.2.1] at p2
    have t1 : B'.trustedPending = B.trustedPending := hsame .trustedPending (by decide) (by decide)
    have t2 : B'.untrustedPending = B.untrustedPending := hsame .untrustedPending (by decide) (by decide)
    refine ⟨t1, t2, him, by omega⟩
  rcases hcases with ⟨-, x, he⟩ | ⟨-, cs, he, htx, hcp⟩
  · refine ⟨t, .error (.hashNotMatching b.height x b.hash), ?_, ⟨fun _ => rfl, fun _ => rfl, fun _ _ => rfl⟩, rfl,
      fun _ => hbal t ⟨fun _ => rfl, fun _ => rfl, fun _ _ => rfl⟩ (le_refl _)⟩
    unfold Tracker.insertCheckpoint Tracker.insertCheckpointPreview ChainGraph.insertCheckpointPreview Tracker.applyOk
    rw [he]
  · have hm : SameMoney t ⟨t.txoutIndex, t.chainGraph.applyChangeset ⟨cs, Additions.empty⟩⟩ := by
      refine sameMoney_of rfl rfl rfl (fun y => ?_)
      show (t.chainGraph.chain.applyChangeset cs).txidToPos.get y = _
      rw [SparseChain.applyChangeset_tx, htx]
      rfl
    refine ⟨⟨t.txoutIndex, t.chainGraph.applyChangeset ⟨cs, Additions.empty⟩⟩, .ok (.ofChainGraph ⟨cs, Additions.empty⟩), ?_, hm, rfl,
      fun hl => hbal _ hm ?_⟩
    · unfold Tracker.insertCheckpoint Tracker.insertCheckpointPreview ChainGraph.insertCheckpointPreview Tracker.applyOk
      rw [he]
      rfl
    · refine tip_after t.chainGraph.chain hl cs fun k x hx => ?_
      unfold SparseChain.overlay
      rw [hcp]
      split_ifs
      · simp only []; rw [hx]; simp
      · simp
      · simp only []; rw [hx]; simp

omit [LawfulChainPosition P] [DecidableEq D] [LawfulTx T] in
/-- **C80** a call that returns an error leaves the whole wallet as it was -/
theorem C80_failed_call (t : Tracker K D P T) :
    (∀ scan o t' e, t.applyUpdate scan o = some (t', .error e) → t' = t) ∧
    (∀ tx pos o t' e, t.insertTx tx pos o = some (t', .error e) → t' = t) ∧
    (∀ b o t' e, t.insertCheckpoint b o = some (t', .error e) → t' = t) := by
  have key : ∀ {ε : Type} (r : Res ε (KeychainChangeSet K P T)) (t' : Tracker K D P T) (e : ε), t.applyOk r = some (t', .error e) → t' = t := by
    intro ε r t' e h
    unfold Tracker.applyOk at h
    cases r with
    | panic => cases h
    | err e' => cases h; rfl
    | ok cs =>
      obtain ⟨x, -, hx⟩ := Option.map_eq_some_iff.1 h
      cases hx
  exact ⟨fun _ _ => key _, fun _ _ _ => key _, fun _ _ => key _⟩

/-- **C80** limiting the number of checkpoints, even to none, changes no reported output; unless the limit is 0 it keeps the balance too -/
theorem C80_set_limit (t : Tracker K D P T) (l : Option Nat) :
    SameMoney t (t.setCheckpointLimit l) ∧ (l ≠ some 0 → ∀ so trust, (t.setCheckpointLimit l).balance so trust = t.balance so trust) := by
  have hm : SameMoney t (t.setCheckpointLimit l) := by
    refine sameMoney_of rfl rfl rfl (fun y => ?_)
    show (SparseChain.pruneCheckpoints _).txidToPos.get y = _
    rw [(SparseChain.prune_tx _).1]
    rfl
  refine ⟨hm, fun hl so trust => ?_⟩
  unfold Tracker.balance
  rw [hm.2.1]
  have : (t.setCheckpointLimit l).chainGraph.chain.latestCheckpoint = t.chainGraph.chain.latestCheckpoint :=
    prune_latest { t.chainGraph.chain with checkpointLimit := l } hl
  rw [this]

/-- a call that records no transactions -/
def Moveless : Tracker.Op K P T → Bool
  | .applyUpdate _ _ => false
  | .insertTx _ _ _ => false
  | _ => true

/-- the block a call adds is not at `u32::MAX`, which the code uses as a sentinel -/
def BlockOk : Tracker.Op K P T → Prop
  | .insertCheckpoint b _ => b.height < u32Max
  | _ => True

/-- a block below `u32::MAX` leaves the heights below it -/
theorem insert_checkpoint_heights (t : Tracker K D P T) (ht : t.Reachable) (hok : HeightsOk t.chainGraph.chain) (b : BlockId)
    (hb : b.height < u32Max) (o : Orders P T) {t' r} (h : t.insertCheckpoint b o = some (t', r)) : HeightsOk t'.chainGraph.chain := by
  have hi := ChainGraph.reachable_inv (tracker_parts ht).2
  unfold Tracker.insertCheckpoint Tracker.insertCheckpointPreview ChainGraph.insertCheckpointPreview Tracker.applyOk at h
  rcases insertCheckpointPreview_cases t.chainGraph.chain hok hi.cons b o.chain with ⟨-, x, he⟩ | ⟨-, cs, he, htx, hcp⟩
  · rw [he] at h; cases h; exact hok
  · rw [he] at h
    obtain ⟨t1, h1, h2⟩ := Option.map_eq_some_iff.1 h
    cases h2
    have : t' = ⟨t.txoutIndex, t.chainGraph.applyChangeset ⟨cs, Additions.empty⟩⟩ := (Option.some.inj h1).symm
    rw [this]
    refine SparseChain.applyChangeset_heightsOk hok (fun k x hx => ?_) (fun y p k hp => ?_)
    · rw [hcp] at hx
      split_ifs at hx with hk
      rw [hk]; exact hb
    · rw [htx] at hp; cases hp

/-- **C80** whole sequences of calls that record no transactions: the reported outputs, spent and unspent, and the spendable value at
every height stay as they were, whatever is revealed, reserved or marked and whatever blocks are added -/
theorem C80_history (t : Tracker K D P T) (ht : t.Reachable) (hok : HeightsOk t.chainGraph.chain) (ops : List (Tracker.Op K P T))
    (hops : ∀ op ∈ ops, Moveless op = true ∧ BlockOk op) {r} (h : t.runFrom ops = some r) : SameMoney t r.1 := by
  induction ops generalizing t r with
  | nil => cases h; exact ⟨fun _ => rfl, fun _ => rfl, fun _ _ => rfl⟩
  | cons op l ih =>
    obtain ⟨r1, h1, h2⟩ := Option.bind_eq_some_iff.1 h
    obtain ⟨r2, h3, h4⟩ := Option.bind_eq_some_iff.1 h2
    have e : r.1 = r2.1 := (congrArg Prod.fst (Option.some.inj h4)).symm
    rw [e]
    obtain ⟨ho, hb⟩ := hops op List.mem_cons_self
    have hreach : r1.1.Reachable := tracker_step_reachable ht op (by cases op <;> first | trivial | cases ho) h1
    have hvia : ∀ (kop : KeychainIndex.Op K D) (q : Option (KeychainIndex K D × DerivationAdditions K)), t.txoutIndex.step kop = q →
        kop.scansNothing = true → t.viaIndex q = some r1 → SameMoney t r1.1 ∧ HeightsOk r1.1.chainGraph.chain := by
      intro kop q hq hs hv
      obtain ⟨x, hx, rfl⟩ := Option.map_eq_some_iff.1 hv
      rw [hx] at hq
      exact ⟨(C80_index_call t kop hs hq).1, hok⟩
    have hstep : SameMoney t r1.1 ∧ HeightsOk r1.1.chainGraph.chain := by
      cases op with
      | applyUpdate scan o => cases ho
      | insertTx tx pos o => cases ho
      | insertCheckpoint b o =>
        obtain ⟨t', q, h5, h6, h7, -⟩ := C80_insert_checkpoint t ht hok b o
        obtain ⟨x, hx, rfl⟩ := Option.map_eq_some_iff.1 h1
        rw [h5] at hx
        cases hx
        exact ⟨h6, insert_checkpoint_heights t ht hok b hb o h5⟩
      | revealToTarget k n => exact hvia (.revealToTarget k n) _ rfl rfl h1
      | revealToTargetMulti m => exact hvia (.revealToTargetMulti m) _ rfl rfl h1
      | revealNextSpk k => exact hvia (.revealNextSpk k) _ rfl rfl h1
      | revealAndReserveNextSpk k => exact hvia (.revealAndReserveNextSpk k) _ rfl rfl h1
      | nextUnusedSpk k => exact hvia (.nextUnusedSpk k) _ rfl rfl h1
      | reserveNextUnusedSpk k => exact hvia (.reserveNextUnusedSpk k) _ rfl rfl h1
      | markUsed k i => exact hvia (.markUsed k i) _ rfl rfl h1
      | unmarkUsed k i => exact hvia (.unmarkUsed k i) _ rfl rfl h1
    exact hstep.1.trans (ih r1.1 hreach hstep.2 (fun o' h' => hops o' (List.mem_cons_of_mem _ h')) h3)

end

/-! ## Examples -/

theorem exTr_heights : HeightsOk exTr.chainGraph.chain := SparseChain.heightsOk_of_B (by decide +kernel)

/-- calls that record no transaction: blocks are added (one of them refused), scripts are revealed, marked and reserved -/
def exQuiet : List (Tracker.Op (Fin 3) TxHeight DemoTx) :=
  [.insertCheckpoint ⟨200, 77⟩ oId, .revealToTarget 0 9, .markUsed 0 1, .reserveNextUnusedSpk 1, .insertCheckpoint ⟨150, 3⟩ oId,
    .insertCheckpoint ⟨200, 78⟩ oId]

/-- `C80_history`: the calls do not panic -/
example : (exTr.runFrom exQuiet).isSome = true ∧ (∀ op ∈ exQuiet, Moveless op = true) ∧ (∀ op ∈ exQuiet, BlockOk op) ∧
    exTr.Reachable ∧ HeightsOk exTr.chainGraph.chain :=
  ⟨by decide +kernel, by decide, by
    intro op hop
    simp only [exQuiet, List.mem_cons, List.not_mem_nil, or_false] at hop
    rcases hop with rfl | rfl | rfl | rfl | rfl | rfl <;> first | trivial | (show (_ : Nat) < u32Max; decide), exTr_reachable, exTr_heights⟩

/-- `C80_insert_checkpoint`: the coinbase output of 50 matures -/
example : exTr.balance soId (fun _ => true) = some ⟨50, 44, 0, 47⟩ ∧
    ((exTr.insertCheckpoint ⟨200, 77⟩ oId).bind fun r => r.1.balance soId fun _ => true) = some ⟨0, 44, 0, 97⟩ ∧
    exTr.chainGraph.chain.checkpointLimit ≠ some 0 := ⟨by decide +kernel, by decide +kernel, by decide +kernel⟩

/-- the limit 0 is no good: the balance panics although all outputs are still reported -/
example : (exTr.setCheckpointLimit (some 0)).balance soId (fun _ => true) = none := by decide +kernel

/-- `C80_index_calls` -/
example : (exTr.txoutIndex.runFrom [.setLookahead 0 5, .revealNextSpk 0, .unmarkUsed 0 2, .lookaheadToTarget 1 9]).isSome = true := by
  decide +kernel

/-- `C80_failed_call` -/
example : (match exTr.insertCheckpoint ⟨8, 78⟩ oId with | some (_, .error _) => true | _ => false) = true ∧
    (match exTr.insertTx (d 2) (.confirmed 9) oId with | some (_, .error _) => true | _ => false) = true :=
  ⟨by decide +kernel, by decide +kernel⟩

end Verif.Props
