import Verif.Lemmas.Sync6

/-!
# What the commands ask for, and which outputs are shown afterwards
-/

namespace Verif.Sync
open Verif Spec Props SparseChain ChainGraph
variable {K D P T : Type} [LinearOrder K] [DescriptorOps D] [DecidableEq D] [LinearOrder P] [ChainPosition P]
  [LawfulChainPosition P] [LinearOrder T] [AsTransaction T] [LawfulTx T]

theorem spksOfAll_get {s : KeychainIndex K D} (hd : AllDerivable s) {k : K} {l : List (Nat × Script)}
    (h : (spksOfAllKeychains s).get k = some l) : ∃ d, s.keychains.get k = some d ∧ l.length = cap d + 1 ∧
      ∀ (n i : Nat) (spk : Script), l[n]? = some (i, spk) ↔ i = n ∧ n ≤ cap d ∧ spkAt d n = some spk := by
  unfold spksOfAllKeychains at h
  rw [OMap.get_mapVal, Option.map_eq_some_iff] at h
  obtain ⟨d, hk, rfl⟩ := h
  refine ⟨d, hk, ?_⟩
  obtain ⟨l, h1, h2, h3⟩ := (C59_spks_of_keychain s k).2 d hk (hd k d hk)
  have hl : rangeDescriptorSpks d (List.range (u32Max + 1)) = l := by
    unfold KeychainIndex.spksOfKeychain at h1
    rw [hk] at h1
    exact Option.some.inj h1
  rw [hl]
  have hlen : l.length = cap d + 1 := by
    rw [← List.length_map (f := Prod.fst), h2, List.length_range]
  have hn : ∀ (n : Nat) (e : Nat × Script), l[n]? = some e → e.1 = n := by
    intro n e he
    have : (l.map Prod.fst)[n]? = some e.1 := by rw [List.getElem?_map, he]; rfl
    rw [h2] at this
    obtain ⟨h4, h5⟩ := List.getElem?_eq_some_iff.1 this
    simpa using h5.symm
  refine ⟨hlen, fun n i spk => ⟨fun he => ?_, ?_⟩⟩
  · have := hn n _ he
    simp only at this
    subst this
    exact ⟨rfl, (h3 i spk).1 (List.mem_of_getElem? he)⟩
  · rintro ⟨rfl, h4, h5⟩
    obtain ⟨n, hn', he⟩ := List.getElem_of_mem ((h3 i spk).2 ⟨h4, h5⟩)
    have h6 : l[n]? = some (i, spk) := by rw [List.getElem?_eq_getElem hn', he]
    have := hn n _ h6
    simp only at this
    subst this
    exact h6

theorem syncSpks_spec {t : Tracker K D P T} (hr : t.Reachable) (hd : AllDerivable t.txoutIndex) (f : Flags) :
    ∃ l, syncSpks t f = some l ∧ ∀ spk, spk ∈ l ↔ ∃ k i, SyncAsked t f k i spk := by
  have hinv := KeychainIndex.reachable_inv (tracker_parts hr).1 hd
  obtain ⟨h, hh, -⟩ := hinv.hist
  have hun : ∀ i, t.txoutIndex.inner.unused.mem i = true → ∃ spk, t.txoutIndex.inner.spkAtIndex i = some spk := by
    intro i hi
    rw [hh] at hi ⊢
    exact C30_unused_spks_no_panic h i hi
  have hall : ∀ spk, spk ∈ t.txoutIndex.inner.spks.entries.map Prod.snd ↔ ∃ k i, stored t.txoutIndex k i = some spk := by
    intro spk
    rw [List.mem_map]
    constructor
    · rintro ⟨⟨i, s⟩, h1, rfl⟩
      exact ⟨(ofLex i).1, (ofLex i).2, OMap.mem_entries.1 h1⟩
    · rintro ⟨k, i, h1⟩
      exact ⟨(toLex (k, i), spk), OMap.mem_entries.2 h1, rfl⟩
  have hunused : ∃ l, (t.txoutIndex.inner.unusedSpks .unbounded .unbounded).bind (fun l => l.mapM Prod.snd) = some l ∧
      ∀ spk, spk ∈ l ↔ ∃ k i, stored t.txoutIndex k i = some spk ∧ t.txoutIndex.inner.isUsed (toLex (k, i)) = false := by
    unfold SpkIndex.unusedSpks
    rw [if_neg (by simp [Bound.rangePanics])]
    simp only [Option.bind_some]
    have gen : ∀ l : List (K ×ₗ Nat), (∀ i ∈ l, t.txoutIndex.inner.unused.mem i = true) →
        ∃ r, (l.map fun i => (i, t.txoutIndex.inner.spkAtIndex i)).mapM Prod.snd = some r ∧
          ∀ spk, spk ∈ r ↔ ∃ i ∈ l, t.txoutIndex.inner.spkAtIndex i = some spk := by
      intro l
      induction l with
      | nil => intro _; exact ⟨[], rfl, by simp⟩
      | cons a l ih =>
        intro hl
        obtain ⟨r, h1, h2⟩ := ih fun i hi => hl i (List.mem_cons_of_mem _ hi)
        obtain ⟨s, hs⟩ := hun a (hl a List.mem_cons_self)
        refine ⟨s :: r, ?_, fun spk => ?_⟩
        · rw [List.map_cons, List.mapM_cons, h1]
          simp only [hs]
          rfl
        · rw [List.mem_cons, h2]
          constructor
          · rintro (rfl | ⟨i, hi, h3⟩)
            · exact ⟨a, List.mem_cons_self, hs⟩
            · exact ⟨i, List.mem_cons_of_mem _ hi, h3⟩
          · rintro ⟨i, hi, h3⟩
            rcases List.mem_cons.1 hi with rfl | hi
            · rw [hs] at h3; cases h3; exact .inl rfl
            · exact .inr ⟨i, hi, h3⟩
    have hf : t.txoutIndex.inner.unused.toList.filter (fun i => Bound.unbounded.geB i && Bound.unbounded.leB i) =
        t.txoutIndex.inner.unused.toList := List.filter_eq_self.2 (by intro a _; rfl)
    obtain ⟨r, h1, h2⟩ := gen t.txoutIndex.inner.unused.toList (fun i hi => OSet.mem_toList.1 hi)
    refine ⟨r, by rw [hf]; exact h1, fun spk => ?_⟩
    rw [h2]
    constructor
    · rintro ⟨i, hi, h3⟩
      exact ⟨(ofLex i).1, (ofLex i).2, h3, by unfold SpkIndex.isUsed; simpa using OSet.mem_toList.1 hi⟩
    · rintro ⟨k, i, h3, h4⟩
      refine ⟨toLex (k, i), OSet.mem_toList.2 ?_, h3⟩
      unfold SpkIndex.isUsed at h4
      simpa using h4
  obtain ⟨lu, h1, h2⟩ := hunused
  by_cases hu : f.unusedSpks = true
  · refine ⟨(if f.allSpks then t.txoutIndex.inner.spks.entries.map Prod.snd else []) ++ lu, ?_, fun spk => ?_⟩
    · unfold syncSpks; rw [if_pos hu, h1]; rfl
    · rw [List.mem_append, h2]
      unfold SyncAsked
      by_cases ha : f.allSpks = true
      · rw [if_pos ha, hall]
        constructor
        · rintro (⟨k, i, h⟩ | ⟨k, i, h, -⟩) <;> exact ⟨k, i, h, .inl ha⟩
        · rintro ⟨k, i, h, -⟩; exact .inl ⟨k, i, h⟩
      · rw [if_neg ha]
        constructor
        · rintro (h | ⟨k, i, h, h'⟩)
          · cases h
          · exact ⟨k, i, h, .inr ⟨hu, h'⟩⟩
        · rintro ⟨k, i, h, h' | h'⟩
          · exact absurd h' ha
          · exact .inr ⟨k, i, h, h'.2⟩
  · refine ⟨(if f.allSpks then t.txoutIndex.inner.spks.entries.map Prod.snd else []) ++ [], ?_, fun spk => ?_⟩
    · unfold syncSpks; rw [if_neg hu]; rfl
    · rw [List.append_nil]
      unfold SyncAsked
      by_cases ha : f.allSpks = true
      · rw [if_pos ha, hall]
        constructor
        · rintro ⟨k, i, h⟩; exact ⟨k, i, h, .inl ha⟩
        · rintro ⟨k, i, h, -⟩; exact ⟨k, i, h⟩
      · rw [if_neg ha]
        constructor
        · intro h; cases h
        · rintro ⟨k, i, h, h' | h'⟩
          · exact absurd h' ha
          · exact absurd h'.1 hu

theorem syncTxids_spec {t : Tracker K D P T} (hr : t.Reachable) (f : Flags) :
    ∃ l, syncTxids t f = some l ∧ ∀ x, x ∈ l ↔ f.unconfirmed = true ∧ IsUnconfirmed t.chainGraph.chain x := by
  have hp := positionsAgree_of_consistent (reachable_inv (tracker_parts hr).2).cons
  unfold syncTxids
  by_cases hu : f.unconfirmed = true
  · rw [if_pos hu]
    obtain ⟨h1, h2⟩ := C15_range_by_height t.chainGraph.chain hp (.included .unconfirmed) .unbounded
    cases hl : t.chainGraph.chain.rangeTxidsByHeight (.included .unconfirmed) .unbounded with
    | none => have := h1.1 hl; simp [Bound.rangePanics] at this
    | some l =>
      refine ⟨l.map Prod.snd, rfl, fun x => ?_⟩
      obtain ⟨-, h3⟩ := h2 l hl
      rw [List.mem_map]
      have htop : ∀ h : TxHeight, TxHeight.unconfirmed ≤ h ↔ h = .unconfirmed := by
        intro h
        cases h with
        | unconfirmed => simp
        | confirmed n =>
          constructor
          · intro h; exact absurd h (not_le.2 TxHeight.confirmed_lt_unconfirmed)
          · intro h; cases h
      constructor
      · rintro ⟨⟨p, x'⟩, h4, rfl⟩
        obtain ⟨h5, h6⟩ := (h3 p x').1 h4
        exact ⟨hu, p, h5, (htop _).1 h6.1⟩
      · rintro ⟨-, p, h5, h6⟩
        exact ⟨(p, x), (h3 p x).2 ⟨h5, (htop _).2 h6, trivial⟩, rfl⟩
  · rw [if_neg hu]
    exact ⟨[], rfl, fun x => by simp [hu]⟩

theorem utxo_inChain {t : Tracker K D P T} (hr : t.Reachable) {so : SpendOrder} {e : (K × Nat) × FullTxOut P}
    (he : e ∈ t.fullUtxos so) : InChain t.chainGraph.chain e.2.outpoint.txid := by
  obtain ⟨⟨k, i⟩, g⟩ := e
  obtain ⟨-, ⟨y, hy, -⟩, -⟩ := ((C39_full_utxos t hr so).1 k i g).1 he
  intro hn
  rw [(C24_get_tx_in_chain _ (tracker_parts hr).2 _).1 hn] at hy
  cases hy

/-- what becomes of money that the server does not know -/
theorem After.unknown_money {t t' : Tracker K D P T} {v : View P T} {S : Txid → Prop} {la : OMap K Nat} (h : After t v S la t')
    (hr : t.Reachable) (hv : v.Sound) (so so' : SpendOrder) {k : K} {i : Nat} {g : FullTxOut P} (hg : ((k, i), g) ∈ t.fullUtxos so)
    (hun : v.find g.outpoint.txid = none) (hns : ¬ ∃ y, SpentIn v.find g.outpoint y) :
    (∃ g', ((k, i), g') ∈ t'.fullUtxos so' ∧ g'.outpoint = g.outpoint ∧ g'.txout = g.txout) ↔ ¬ Overruled t t' g.outpoint.txid := by
  obtain ⟨h39, -⟩ := C39_full_utxos t hr so
  obtain ⟨h39', -⟩ := C39_full_utxos t' h.ready.reachable so'
  have hcg := (tracker_parts hr).2
  have hcg' := (tracker_parts h.ready.reachable).2
  have hi := reachable_inv hcg
  have hi' := reachable_inv hcg'
  obtain ⟨⟨x0, hix⟩, ⟨y, hy, hyo, -⟩, -, hno⟩ := (h39 k i g).1 hg
  have hin : InChain t.chainGraph.chain g.outpoint.txid := by
    intro hn
    rw [(C24_get_tx_in_chain _ hcg _).1 hn] at hy
    cases hy
  obtain ⟨p, hp⟩ := Option.ne_none_iff_exists'.1 hin
  obtain ⟨y2, h1, h2, -⟩ := (C24_get_tx_in_chain _ hcg _).2 p hp
  rw [h1] at hy
  cases hy
  rw [← (h.fate hun hin).1]
  constructor
  · rintro ⟨g', hg', ho, -⟩
    obtain ⟨-, ⟨y3, h3, -⟩, -⟩ := (h39' k i g').1 hg'
    rw [ho] at h3
    intro hn
    rw [(C24_get_tx_in_chain _ hcg' _).1 hn] at h3
    cases h3
  · intro hin'
    obtain ⟨q, hq⟩ := Option.ne_none_iff_exists'.1 hin'
    obtain ⟨y3, h3, h4, -⟩ := (C24_get_tx_in_chain _ hcg' _).2 q hq
    rw [h.graphKept _ _ h2] at h4
    cases h4
    refine ⟨⟨g.outpoint, g.txout, q, none, (asTx y).isCoinBase⟩, (h39' k i _).2 ⟨⟨x0, ?_⟩, ⟨y, h3, hyo, rfl⟩, rfl, ?_⟩, rfl, rfl⟩
    · rw [h.indexKept _ (by rw [h2]; simp)]; exact hix
    · rintro ⟨s, ys, h5, h6, h7, h8⟩
      rcases h.only s h5 with ⟨-, e, he⟩ | h9
      · have : asTx e.1 = asTx ys := LawfulTx.txid_inj _ _ (by rw [hv.truth.ids _ _ he, hi'.wf.keys _ _ h6])
        exact hns ⟨s, e, he, by rw [this]; exact h7, h8⟩
      · obtain ⟨yo, hyo'⟩ := hi.full s h9
        have := h.graphKept _ _ hyo'
        rw [h6] at this
        cases this
        exact hno ⟨s, ys, h9, hyo', h7, h8⟩

theorem utxo_iff {t t' : Tracker K D P T} {v : View P T} {S : Txid → Prop} {la : OMap K Nat} (h : After t v S la t') (hv : v.Sound)
    (so : SpendOrder) {op : OutPoint} {x : TxOut} {p : P} (hout : OutputIn v.find op x p) (hS : S op.txid)
    (hsp : ∀ y, SpentIn v.find op y → S y) {k : K} {i : Nat} {x0 : TxOut} (hix : t'.txoutIndex.inner.txout op = some (toLex (k, i), x0)) :
    ((∃ f, ((k, i), f) ∈ t'.fullUtxos so ∧ f.outpoint = op) ↔ (¬ ∃ y, SpentIn v.find op y) ∧
      ¬ ∃ z y, InChain t'.chainGraph.chain z ∧ v.find z = none ∧ t'.chainGraph.graph.getTx z = some y ∧ op ∈ (asTx y).input ∧
        op.isNull = false) ∧
    ∀ k' i' f, ((k', i'), f) ∈ t'.fullUtxos so → f.outpoint = op → k' = k ∧ i' = i ∧ f.txout = x ∧ f.chainPosition = p := by
  obtain ⟨h39, -⟩ := C39_full_utxos t' h.ready.reachable so
  have hcg := (tracker_parts h.ready.reachable).2
  have hi := reachable_inv hcg
  obtain ⟨y, hy, hyo⟩ := hout
  obtain ⟨hpos, y', hy', has⟩ := h.found _ _ hy hS
  obtain ⟨z, hz1, hz2, -⟩ := (C24_get_tx_in_chain _ hcg op.txid).2 p hpos
  rw [hy'] at hz2
  cases hz2
  refine ⟨⟨?_, ?_⟩, ?_⟩
  · rintro ⟨f, hf, rfl⟩
    obtain ⟨-, -, -, hno⟩ := (h39 k i f).1 hf
    refine ⟨?_, ?_⟩
    · rintro ⟨s, e, he, hin, hnn⟩
      obtain ⟨h1, ys, h2, h3⟩ := h.found _ _ he (hsp s ⟨e, he, hin, hnn⟩)
      exact hno ⟨s, ys, by unfold InChain; rw [h1]; simp, h2, by rw [h3]; exact hin, hnn⟩
    · rintro ⟨s, ys, h1, -, h2, h3, h4⟩
      exact hno ⟨s, ys, h1, h2, h3, h4⟩
  · rintro ⟨h1, h2⟩
    refine ⟨⟨op, x, p, none, (asTx y').isCoinBase⟩, (h39 k i _).2 ⟨⟨x0, hix⟩, ⟨y', hz1, ?_, rfl⟩, rfl, ?_⟩, rfl⟩
    · rw [has]; exact hyo
    · rintro ⟨s, ys, h3, h4, h5, h6⟩
      cases hf : v.find s with
      | none => exact h2 ⟨s, ys, h3, hf, h4, h5, h6⟩
      | some e =>
        apply h1
        have : asTx e.1 = asTx ys := LawfulTx.txid_inj _ _ (by rw [hv.truth.ids _ _ hf, hi.wf.keys _ _ h4])
        exact ⟨s, e, hf, by rw [this]; exact h5, h6⟩
  · intro k' i' f hf ho
    subst ho
    obtain ⟨⟨x', hx'⟩, ⟨y2, h1, h2, -⟩, -, -⟩ := (h39 k' i' f).1 hf
    rw [hix] at hx'
    rw [hz1] at h1
    have e1 := Option.some.inj hx'
    have e2 := Option.some.inj (Option.some.inj h1)
    have e3 : toLex (k, i) = toLex (k', i') := congrArg Prod.fst e1
    have e4 : (k, i) = (k', i') := toLex.injective e3
    cases e4
    refine ⟨rfl, rfl, ?_, (congrArg Prod.fst e2).symm⟩
    have e5 : y' = y2 := congrArg Prod.snd e2
    subst e5
    rw [has] at h2
    rw [hyo] at h2
    exact (Option.some.inj h2).symm

omit [LawfulChainPosition P] in
theorem foundByScript_iff {t : Tracker K D P T} (hd : AllDerivable t.txoutIndex) (w : Esplora.World T) (gap par : Nat) (x : Txid) :
    Esplora.FoundByScript w gap par (spksOfAllKeychains t.txoutIndex) x ↔
      ∃ k i spk e, Asked t w gap par k i spk ∧ e ∈ w.history spk ∧ (asTx e.1).txid = x := by
  unfold Esplora.FoundByScript Asked
  constructor
  · rintro ⟨k, l, n, ⟨i, spk⟩, tx, h1, h2, h3, h4, h5⟩
    obtain ⟨d, -, -, h6⟩ := spksOfAll_get hd h1
    obtain ⟨rfl, -, -⟩ := (h6 n i spk).1 h3
    exact ⟨k, i, spk, tx, ⟨l, h1, h2, h3⟩, h4, h5⟩
  · rintro ⟨k, i, spk, tx, ⟨l, h1, h2, h3⟩, h4, h5⟩
    exact ⟨k, l, i, (i, spk), tx, h1, h2, h3, h4, h5⟩

/-- the `Scan` command with an honest server -/
theorem scan_after {t : Tracker K D ConfirmationTime T} {s : Esplora.Server T} {w : Esplora.World T} (hs : s.Shows w) (hw : w.Sound)
    (hx : Indexed w) (h : Ready t (viewOf w)) (o o' : Orders ConfirmationTime T) (gap par fuel n time : Nat)
    (hf : ∀ spk, (w.confirmed spk).length ≤ fuel) :
    ∃ t' cs la, esploraScan s o o' t gap par fuel (n + 1) time = .ok (t', .ok cs) ∧
      After t (viewOf w) (fun x => ∃ k i spk e, Asked t w gap (max par 1) k i spk ∧ e ∈ w.history spk ∧ (asTx e.1).txid = x) la t' ∧
      ∀ k i, la.get k = some i ↔ ∃ l, (spksOfAllKeychains t.txoutIndex).get k = some l ∧ Esplora.LastActive w gap (max par 1) l i := by
  obtain ⟨r, h1, h2, h3⟩ := answer_scan hs hw o t.chainGraph.chain h.below par fuel n K (spksOfAllKeychains t.txoutIndex)
    (fun _ _ _ _ _ => hf _) [] [] gap time
  have h2' := h2.congr (S' := fun x => ∃ k i spk e, Asked t w gap (max par 1) k i spk ∧ e ∈ w.history spk ∧ (asTx e.1).txid = x) (by
    intro x
    rw [foundByScript_iff h.derivable]
    constructor
    · rintro (h | ⟨h, -⟩ | ⟨_, h, -⟩)
      · exact h
      · cases h
      · cases h
    · exact Or.inl)
  obtain ⟨t', cs, h4, h5⟩ := take_answer h (viewOf_sound hw hx) h2' o' (by
    intro k i hki
    obtain ⟨l, hl, n, spk, hn, he, -⟩ := (h3 k i).1 hki
    obtain ⟨d, hd, -, h6⟩ := spksOfAll_get h.derivable hl
    obtain ⟨rfl, h7, -⟩ := (h6 _ _ _).1 he
    exact ⟨d, hd, h7⟩)
  refine ⟨t', cs, _, ?_, h5, h3⟩
  unfold esploraScan finish
  rw [h1]
  simp only
  rw [h4]

/-- the `Sync` command with an honest server -/
theorem sync_after {t : Tracker K D ConfirmationTime T} {s : Esplora.Server T} {w : Esplora.World T} (hs : s.Shows w) (hw : w.Sound)
    (hx : Indexed w) (h : Ready t (viewOf w)) (o o' : Orders ConfirmationTime T) (so : SpendOrder) (f : Flags) (par fuel n time : Nat)
    (hf : ∀ spk, (w.confirmed spk).length ≤ fuel) (hlen : ∀ l, syncSpks t f.resolve = some l → l.length ≤ u64Max) :
    ∃ t' cs, esploraSync s o o' so t f par fuel (n + 1) time = .ok (t', .ok cs) ∧
      After t (viewOf w) (fun x => (∃ k i spk e, SyncAsked t f.resolve k i spk ∧ e ∈ w.history spk ∧ (asTx e.1).txid = x) ∨
        (f.resolve.unconfirmed = true ∧ IsUnconfirmed t.chainGraph.chain x ∧ ∃ e, w.find x = some e) ∨
        (f.resolve.utxos = true ∧ ∃ e ∈ t.fullUtxos so, (∃ e', w.find e.2.outpoint.txid = some e') ∧
          (x = e.2.outpoint.txid ∨ SpentIn (viewOf w).find e.2.outpoint x))) OMap.empty t' := by
  obtain ⟨spks, hs1, hs2⟩ := syncSpks_spec h.reachable h.derivable f.resolve
  obtain ⟨txids, ht1, ht2⟩ := syncTxids_spec h.reachable f.resolve
  obtain ⟨u, h1, h2⟩ := answer_sync hs hw o t.chainGraph.chain h.below par fuel n spks (fun _ _ => hf _) (hlen _ hs1) txids
    (syncOutpoints t so f.resolve) time
  have h2' := h2.congr (S' := fun x => (∃ k i spk e, SyncAsked t f.resolve k i spk ∧ e ∈ w.history spk ∧ (asTx e.1).txid = x) ∨
        (f.resolve.unconfirmed = true ∧ IsUnconfirmed t.chainGraph.chain x ∧ ∃ e, w.find x = some e) ∨
        (f.resolve.utxos = true ∧ ∃ e ∈ t.fullUtxos so, (∃ e', w.find e.2.outpoint.txid = some e') ∧
          (x = e.2.outpoint.txid ∨ SpentIn (viewOf w).find e.2.outpoint x))) (by
    intro x
    refine or_congr ?_ (or_congr ?_ ?_)
    · constructor
      · rintro ⟨spk, h3, e, h4, h5⟩
        obtain ⟨k, i, h6⟩ := (hs2 spk).1 h3
        exact ⟨k, i, spk, e, h6, h4, h5⟩
      · rintro ⟨k, i, spk, e, h6, h4, h5⟩
        exact ⟨spk, (hs2 spk).2 ⟨k, i, h6⟩, e, h4, h5⟩
    · unfold Esplora.FoundByTxid
      rw [ht2, and_assoc]
    · unfold Esplora.FoundByOutpoint syncOutpoints
      by_cases hu : f.resolve.utxos = true
      · rw [if_pos hu]
        constructor
        · rintro ⟨op, hop, h3, h4⟩
          obtain ⟨e, he, rfl⟩ := List.mem_map.1 hop
          exact ⟨hu, e, he, h3, h4.imp_right (hx.spender _ _).1⟩
        · rintro ⟨-, e, he, h3, h4⟩
          exact ⟨_, List.mem_map.2 ⟨e, he, rfl⟩, h3, h4.imp_right (hx.spender _ _).2⟩
      · rw [if_neg hu]
        constructor
        · rintro ⟨_, h, -⟩; cases h
        · rintro ⟨h, -⟩; exact absurd h hu)
  obtain ⟨t', cs, h4, h5⟩ := take_answer h (viewOf_sound hw hx) (sc := scanOfGraph u) h2' o' (by
    intro k i hki
    unfold scanOfGraph at hki
    rw [OMap.get_empty] at hki; cases hki)
  refine ⟨t', cs, ?_, h5⟩
  unfold esploraSync finish
  rw [hs1, ht1]
  simp only
  rw [h1]
  simp only [mapOut]
  rw [h4]

theorem lastActive_ge (w : Esplora.World T) {s : KeychainIndex K D} (hd : AllDerivable s) {k : K} {l : List (Nat × Script)}
    (hl : (spksOfAllKeychains s).get k = some l) {gap par i : Nat} {spk : Script} (hr : Esplora.Reached w gap par l i)
    (hg : l[i]? = some (i, spk)) (hh : w.history spk ≠ []) : ∃ j, Esplora.LastActive w gap par l j ∧ i ≤ j := by
  classical
  obtain ⟨d, -, hlen, hget⟩ := spksOfAll_get hd hl
  have hidx : ∀ (n : Nat) (e : Nat × Script), l[n]? = some e → e.1 = n := fun n e he => ((hget n e.1 e.2).1 he).1
  have gen : ∀ m n spk, m = l.length - n → Esplora.Reached w gap par l n → l[n]? = some (n, spk) → w.history spk ≠ [] →
      ∃ j, Esplora.LastActive w gap par l j ∧ n ≤ j := by
    intro m
    induction m using Nat.strong_induction_on with
    | _ m ih =>
      intro n spk hm hn hg hh
      by_cases hmore : ∃ (n' : Nat) (e : Nat × Script), n < n' ∧ Esplora.Reached w gap par l n' ∧ l[n']? = some e ∧ w.history e.2 ≠ []
      · obtain ⟨n', e, h1, h2, h3, h4⟩ := hmore
        have h5 := hidx n' e h3
        have h6 := h2.1
        have h7 := hn.1
        obtain ⟨j, hj, hle⟩ := ih (l.length - n') (by omega) n' e.2 rfl h2 (by rw [h3, ← h5]) h4
        exact ⟨j, hj, by omega⟩
      · push Not at hmore
        exact ⟨n, ⟨n, spk, hn, hg, hh, fun n' e h1 h2 h3 => hmore n' e h1 h2 h3⟩, le_refl n⟩
  exact gen _ i spk rfl hr hg hh

omit [LawfulTx T] in
theorem history_of_output {w : Esplora.World T} (hx : Indexed w) {op : OutPoint} {x : TxOut} {p : ConfirmationTime}
    (hout : OutputIn (viewOf w).find op x p) (hw : w.Sound) : ∃ e ∈ w.history x.spk, (asTx e.1).txid = op.txid := by
  obtain ⟨y, hy, hyo⟩ := hout
  obtain ⟨e, he, h1⟩ := viewOf_find.1 hy
  cases h1
  exact ⟨e, hx.pays _ _ _ he (List.mem_of_getElem? hyo), hw.found _ _ he⟩

omit [LawfulTx T] in
theorem history_of_spender {w : Esplora.World T} (hw : w.Sound) (hx : Indexed w) {op : OutPoint} {x : TxOut} {p : ConfirmationTime}
    (hout : OutputIn (viewOf w).find op x p) {s : Txid} (hs : SpentIn (viewOf w).find op s) :
    ∃ e ∈ w.history x.spk, (asTx e.1).txid = s := by
  obtain ⟨y, hy, hyo⟩ := hout
  obtain ⟨e, he, h1⟩ := viewOf_find.1 hy
  cases h1
  obtain ⟨e2, he2, hin, hnn⟩ := hs
  obtain ⟨e3, he3, h2⟩ := viewOf_find.1 he2
  cases h2
  exact ⟨e3, hx.spends _ _ _ _ _ he3 hin hnn he hyo, hw.found _ _ he3⟩

end Verif.Sync
