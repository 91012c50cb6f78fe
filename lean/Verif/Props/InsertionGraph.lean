import Verif.Props.Insertion
import Verif.Props.ChainGraph

/-!
# Property C75, second part: insertions into a chain graph
-/

set_option linter.unusedSectionVars false

namespace Verif.Props
open Verif Verif.Spec

section graph
open Verif.ChainGraph
variable {P T : Type} [LinearOrder P] [ChainPosition P] [LawfulChainPosition P]
  [AsTransaction T] [LawfulTx T] [LinearOrder T]

abbrev CGEntries (P T : Type) [LinearOrder P] := List (CGEntry P T × Orders P T)

/-- the graph after one entry -/
def grow (g : TxGraph T) : CGEntry P T → TxGraph T
  | .tx t _ => (g.insertTx t).1
  | .block _ => g

theorem chain_limit_insertTx (c : SparseChain P) (t : Txid) (p : P) (ho : HashOrder (Txid × P)) :
    (c.insertTx t p ho).1.checkpointLimit = c.checkpointLimit := by
  unfold SparseChain.insertTx SparseChain.applyOk
  split
  · exact SparseChain.applyChangeset_limit _ _
  · rfl

/-- one insertion that displaces nothing: the chain alone decides, and the graph takes the transaction -/
theorem cgInsertOne_eq {cg : ChainGraph P T} (hr : Reachable cg) (hok : HeightsOk cg.chain) (e : CGEntry P T) (o : Orders P T)
    (hx : ∀ t p c y op, e = .tx t p → InChain cg.chain c → cg.graph.getTx c = some y → op ∈ (asTx t).input →
      op ∈ (asTx y).input → op.isNull = false → (asTx t).txid = c) :
    cgInsertOne cg e o = (insertOne cg.chain e.entry o.chain).map (fun ch => ⟨ch, grow cg.graph e⟩) := by
  have hi := reachable_inv hr
  cases e with
  | block b =>
    simp only [cgInsertOne, insertOne, CGEntry.entry, ChainGraph.insertCheckpoint, ChainGraph.insertCheckpointPreview,
      SparseChain.insertCheckpoint]
    cases h : cg.chain.insertCheckpointPreview b o.chain with
    | panic => rfl
    | err e => rfl
    | ok cs => rfl
  | tx t p =>
    obtain ⟨h1, h2⟩ := C26_insert_tx cg hr t p o
    have hX : ∀ c, ¬ (¬ InChain cg.chain (asTx t).txid ∧ ChainConflict cg.chain cg.graph (asTx t) c) := by
      rintro c ⟨-, hc, hv⟩
      obtain ⟨r, ⟨vin, op, hop, ⟨y, hy, hin, hnull⟩, hne⟩, hr'⟩ := reachVia_first hv hc
      exact hne (hx t p r y op rfl hr' hy (List.mem_of_getElem? hop) hin hnull).symm
    simp only [cgInsertOne, insertOne, CGEntry.entry]
    have hlim := chain_limit_insertTx cg.chain (asTx t).txid p o.chain
    have hcon : SparseChain.Consistent (cg.chain.insertTx (asTx t).txid p o.chain).1 :=
      SparseChain.step_consistent cg.chain (.insertTx (asTx t).txid p o.chain) hi.cons
    cases hpl : cg.chain.insertTx (asTx t).txid p o.chain with
    | mk c' r =>
      rw [hpl] at h1 h2 hlim hcon
      cases r with
      | panic =>
        have := C12_insert_tx_no_panic cg.chain hok (SparseChain.positionsAgree_of_consistent hi.cons) (asTx t).txid p o.chain
        rw [hpl] at this
        exact absurd rfl this
      | err e => rw [h1 e rfl]; rfl
      | ok cs =>
        obtain ⟨k1, k2, -⟩ := h2 cs rfl
        obtain ⟨cs', hcs'⟩ := k1.2 (fun c hc => absurd hc (hX c))
        obtain ⟨g1, g2, -, g4⟩ := k2 cs' hcs'
        have hlim2 : (cg.insertTx t p o).1.chain.checkpointLimit = cg.chain.checkpointLimit := by
          unfold ChainGraph.insertTx ChainGraph.applyOk
          split
          · exact SparseChain.applyChangeset_limit _ _
          · rfl
        have hinv := reachable_inv (Reachable.insertTx t p o hr)
        have hch : (cg.insertTx t p o).1.chain = c' :=
          chain_ext hinv.cons hcon g2 (fun c => g4 c (hX c)) (hlim2.trans hlim.symm)
        cases hr2 : cg.insertTx t p o with
        | mk cg' r' =>
          rw [hr2] at hcs' hch g1
          simp only at hcs' hch g1
          subst hcs'
          simp only [Option.map_some, Option.some.injEq]
          cases cg'
          simp only at hch g1
          rw [hch, g1]
          rfl

theorem cgInsertOne_reachable {cg cg' : ChainGraph P T} (hr : Reachable cg) {e : CGEntry P T} {o : Orders P T}
    (h : cgInsertOne cg e o = some cg') : Reachable cg' := by
  cases e with
  | tx t p =>
    have := Reachable.insertTx t p o hr
    unfold cgInsertOne at h
    simp only at h
    split at h
    · next he => rw [he] at this; cases h; exact this
    · cases h
  | block b =>
    have := Reachable.insertCheckpoint b o hr
    unfold cgInsertOne at h
    simp only at h
    split at h
    · next he => rw [he] at this; cases h; exact this
    · cases h

theorem insertsTx_cons {e : CGEntry P T × Orders P T} {l : CGEntries P T} {t : T} :
    InsertsTx (e :: l) t ↔ (∃ p, e.1 = .tx t p) ∨ InsertsTx l t := by
  unfold InsertsTx
  constructor
  · rintro ⟨p, o, h⟩
    rcases List.mem_cons.1 h with h | h
    · exact Or.inl ⟨p, by rw [← h]⟩
    · exact Or.inr ⟨p, o, h⟩
  · rintro (⟨p, h⟩ | ⟨p, o, h⟩)
    · exact ⟨p, e.2, by rw [← h]; exact List.mem_cons_self⟩
    · exact ⟨p, o, List.mem_cons_of_mem _ h⟩

/-- the graph after all entries -/
def growAll (g : TxGraph T) (l : CGEntries P T) : TxGraph T := l.foldl (fun g e => grow g e.1) g

/-- insertions that share no spends: the chain alone decides which are accepted, and the graph takes the transactions -/
theorem cgInsertAll_eq {l : CGEntries P T} : ∀ {cg : ChainGraph P T}, Reachable cg → Sane cg.chain →
    EntriesOk (onChain l) → NoSharedSpend cg l →
    cgInsertAll cg l = (insertAll cg.chain (onChain l)).map (fun ch => ⟨ch, growAll cg.graph l⟩) := by
  induction l with
  | nil => intro cg _ _ _ _; rfl
  | cons e l ih =>
    intro cg hr hs hok hns
    have hi := reachable_inv hr
    have hone := cgInsertOne_eq hr hs.1 e.1 e.2 (fun t p c y op he hc hy h1 h2 h3 =>
      hns.2 t c y op (insertsTx_cons.2 (Or.inl ⟨p, he⟩)) hc hy h1 h2 h3)
    have hok2 := entriesOk_cons (e := (e.1.entry, e.2.chain)) (l := onChain l) hok
    show (cgInsertOne cg e.1 e.2).bind _ = ((insertOne cg.chain e.1.entry e.2.chain).bind
      (fun c' => insertAll c' (onChain l))).map _
    rw [hone]
    rcases insertOne_spec hs e.1.entry hok2.1 e.2.chain with ⟨-, c1, hq, hs1, hw⟩ | ⟨-, hn⟩
    · rw [hq] at hone
      have hr1 := cgInsertOne_reachable hr hone
      rw [hq]
      simp only [Option.map_some, Option.bind_some]
      refine (ih hr1 hs1 hok2.2 ⟨fun t t' op h h' => hns.1 t t' op (insertsTx_cons.2 (Or.inr h)) (insertsTx_cons.2 (Or.inr h')),
        fun t c y op ht hc hy h1 h2 h3 => ?_⟩).trans rfl
      have ht' : InsertsTx (e :: l) t := insertsTx_cons.2 (Or.inr ht)
      obtain ⟨e, o⟩ := e
      cases e with
      | block b =>
        have hc' : c1.txPosition c ≠ none := hc
        rw [hw.2 c] at hc'
        exact hns.2 t c y op ht' hc' hy h1 h2 h3
      | tx t0 p0 =>
        have hy' : (cg.graph.insertTx t0).1.getTx c = some y := hy
        rw [TxGraph.insertTx_getTx] at hy'
        by_cases hct : c = (asTx t0).txid
        · have hcont : asTx y = asTx t0 := by
            rcases Option.or_eq_some_iff.1 hy' with h | ⟨-, h⟩
            · exact LawfulTx.txid_inj y t0 ((hi.wf.keys _ _ h).trans hct)
            · rw [if_pos hct] at h; cases h; rfl
          rw [hcont] at h2
          rw [hct]
          exact hns.1 t t0 op ht' (insertsTx_cons.2 (Or.inl ⟨p0, rfl⟩)) h1 h2 h3
        · have hc' : c1.txPosition c ≠ none := hc
          rw [hw.2.1 c hct] at hc'
          rcases Option.or_eq_some_iff.1 hy' with h | ⟨-, h⟩
          · exact hns.2 t c y op ht' hc' h h1 h2 h3
          · rw [if_neg hct] at h; cases h
    · rw [hn]; rfl

/-- what the grown graph holds -/
theorem growAll_spec {l : CGEntries P T} : ∀ {g : TxGraph T}, TxGraph.WF g → TxGraph.WF (growAll g l) ∧
    (∀ k x, (growAll g l).getTx k = some x → g.getTx k = some x ∨
      (g.getTx k = none ∧ InsertsTx l x ∧ (asTx x).txid = k)) ∧
    (∀ k x, g.getTx k = some x → (growAll g l).getTx k = some x) ∧
    (∀ t, InsertsTx l t → (growAll g l).getTx (asTx t).txid ≠ none) ∧
    (∀ op, (growAll g l).getTx op.txid = none → (growAll g l).getTxout op = g.getTxout op) := by
  induction l with
  | nil =>
    intro g hg
    exact ⟨hg, fun k x h => Or.inl h, fun k x h => h, (fun t ⟨p, o, h⟩ => by cases h), fun op _ => rfl⟩
  | cons e l ih =>
    intro g hg
    obtain ⟨e, o⟩ := e
    show TxGraph.WF (growAll (grow g e) l) ∧ _
    cases e with
    | block b =>
      obtain ⟨h0, h1, h2, h3, h4⟩ := ih (g := g) hg
      refine ⟨h0, fun k x h => ?_, h2, fun t ht => ?_, h4⟩
      · rcases h1 k x h with h | ⟨ha, hb, hc⟩
        · exact Or.inl h
        · exact Or.inr ⟨ha, insertsTx_cons.2 (Or.inr hb), hc⟩
      · rcases insertsTx_cons.1 ht with ⟨p, h⟩ | h
        · cases h
        · exact h3 t h
    | tx t0 p0 =>
      have hg' : TxGraph.WF (g.insertTx t0).1 := TxGraph.applyAdditions_wf hg _
      obtain ⟨h0, h1, h2, h3, h4⟩ := ih (g := (g.insertTx t0).1) hg'
      refine ⟨h0, fun k x h => ?_, fun k x h => h2 k x ?_, fun t ht => ?_, fun op h => ?_⟩
      · rcases h1 k x h with h | ⟨ha, hb, hc⟩
        · rw [TxGraph.insertTx_getTx] at h
          rcases Option.or_eq_some_iff.1 h with h | ⟨hn, h⟩
          · exact Or.inl h
          · by_cases hk : k = (asTx t0).txid
            · rw [if_pos hk] at h; cases h
              exact Or.inr ⟨hn, insertsTx_cons.2 (Or.inl ⟨p0, rfl⟩), hk.symm⟩
            · rw [if_neg hk] at h; cases h
        · rw [TxGraph.insertTx_getTx] at ha
          exact Or.inr ⟨(Option.or_eq_none_iff.1 ha).1, insertsTx_cons.2 (Or.inr hb), hc⟩
      · rw [TxGraph.insertTx_getTx, h]; rfl
      · rcases insertsTx_cons.1 ht with ⟨p, h⟩ | h
        · have h : CGEntry.tx t0 p0 = .tx t p := h
          injection h with h _
          subst h
          have := (C17_insert_tx g t0).1
          obtain ⟨y, hy⟩ := Option.isSome_iff_exists.1 this
          have := h2 _ _ hy
          show (growAll (g.insertTx t0).1 l).getTx _ ≠ none
          rw [this]; simp
        · exact h3 t h
      · have h' : (growAll (g.insertTx t0).1 l).getTx op.txid = none := h
        refine (h4 op h').trans ?_
        have hn : (g.insertTx t0).1.getTx op.txid = none := by
          cases hx : (g.insertTx t0).1.getTx op.txid with
          | none => rfl
          | some x => rw [h2 _ _ hx] at h'; cases h'
        rw [TxGraph.insertTx_getTx] at hn
        obtain ⟨hn1, hn2⟩ := Option.or_eq_none_iff.1 hn
        have hne : op.txid ≠ (asTx t0).txid := fun hh => by rw [if_pos hh] at hn2; cases hn2
        rw [TxGraph.insertTx_eq_update, TxGraph.applyUpdate_getTxout (TxGraph.single_whole_keysOk t0),
          TxGraph.single_whole_getTx, hn1, if_neg hne]
        have : (⟨OMap.empty.insert (asTx t0).txid (.whole t0), OMap.empty⟩ : TxGraph T).getTxout op = none := by
          unfold TxGraph.getTxout
          rw [OMap.get_insert, if_neg hne]
          rfl
        simp only [Option.or_none]
        rw [this]; rfl

/-- the order does not matter for the graph -/
theorem growAll_same {l m : CGEntries P T} {g : TxGraph T} (hg : TxGraph.WF g) (hv : OneVersion l)
    (hsame : ∀ t, InsertsTx l t ↔ InsertsTx m t) : growAll g l = growAll g m := by
  obtain ⟨a0, a1, a2, a3, a4⟩ := growAll_spec (l := l) hg
  obtain ⟨b0, b1, b2, b3, b4⟩ := growAll_spec (l := m) hg
  have hle : ∀ k, (growAll g l).getTx k = (growAll g m).getTx k := by
    intro k
    cases hk : g.getTx k with
    | some x => rw [a2 k x hk, b2 k x hk]
    | none =>
      cases hx : (growAll g l).getTx k with
      | some x =>
        rcases a1 k x hx with h | ⟨-, h1, h2⟩
        · rw [hk] at h; cases h
        · have hne := b3 x ((hsame x).1 h1)
          rw [h2] at hne
          obtain ⟨y, hy⟩ := Option.ne_none_iff_exists'.1 hne
          rcases b1 k y hy with h | ⟨-, h1', h2'⟩
          · rw [hk] at h; cases h
          · rw [hy, hv x y h1 ((hsame y).2 h1') (h2.trans h2'.symm)]
      | none =>
        cases hy : (growAll g m).getTx k with
        | none => rfl
        | some y =>
          rcases b1 k y hy with h | ⟨-, h1, h2⟩
          · rw [hk] at h; cases h
          · have := a3 y ((hsame y).2 h1)
            rw [h2, hx] at this
            exact absurd rfl this
  refine TxGraph.ext_of_wf a0 b0 hle (fun op => ?_)
  cases hx : (growAll g l).getTx op.txid with
  | some x => rw [TxGraph.getTxout_whole hx, TxGraph.getTxout_whole (by rw [← hle]; exact hx)]
  | none => rw [a4 op hx, b4 op (by rw [← hle]; exact hx)]

/-- the two lists insert the same things -/
def SameThings (l m : CGEntries P T) : Prop := ∀ e, (∃ o, (e, o) ∈ l) ↔ ∃ o, (e, o) ∈ m

theorem inserts_onChain {l : CGEntries P T} {e : Entry P} : Inserts (onChain l) e ↔ ∃ x, x.entry = e ∧ ∃ o, (x, o) ∈ l := by
  unfold Inserts onChain
  constructor
  · rintro ⟨ho, h⟩
    obtain ⟨y, hy, he⟩ := List.mem_map.1 h
    simp only [Prod.mk.injEq] at he
    exact ⟨y.1, he.1, y.2, hy⟩
  · rintro ⟨x, hx, o, h⟩
    exact ⟨o.chain, List.mem_map.2 ⟨_, h, by rw [← hx]⟩⟩

theorem same_onChain {l m : CGEntries P T} (h : SameThings l m) (e : Entry P) :
    Inserts (onChain l) e ↔ Inserts (onChain m) e := by
  rw [inserts_onChain, inserts_onChain]
  exact ⟨fun ⟨x, hx, hh⟩ => ⟨x, hx, (h x).1 hh⟩, fun ⟨x, hx, hh⟩ => ⟨x, hx, (h x).2 hh⟩⟩

theorem same_insertsTx {l m : CGEntries P T} (h : SameThings l m) (t : T) : InsertsTx l t ↔ InsertsTx m t :=
  ⟨fun ⟨p, hh⟩ => ⟨p, (h _).1 hh⟩, fun ⟨p, hh⟩ => ⟨p, (h _).2 hh⟩⟩

theorem same_noSharedSpend {cg : ChainGraph P T} {l m : CGEntries P T} (h : SameThings l m) (hn : NoSharedSpend cg l) :
    NoSharedSpend cg m :=
  ⟨fun t t' op h1 h2 => hn.1 t t' op ((same_insertsTx h t).2 h1) ((same_insertsTx h t').2 h2),
   fun t c y op h1 => hn.2 t c y op ((same_insertsTx h t).2 h1)⟩

/-- **C75** (chain graphs) when the transactions inserted and those in the chain spend different outputs, accepted insertions
put every block and every transaction in, displace nothing, change nothing else, and store every transaction in full -/
theorem C75_graph_result (cg cg' : ChainGraph P T) (l : CGEntries P T) (hr : Reachable cg) (hok : HeightsOk cg.chain)
    (hl : cg.chain.checkpointLimit = none) (he : EntriesOk (onChain l)) (hco : Coherent (onChain l))
    (hns : NoSharedSpend cg l) (h : cgInsertAll cg l = some cg') :
    (∀ b, Inserts (onChain l) (.block b) → cg'.chain.checkpointAt b.height = some b) ∧
    (∀ k, (∀ b, Inserts (onChain l) (.block b) → b.height ≠ k) → cg'.chain.checkpointAt k = cg.chain.checkpointAt k) ∧
    (∀ t p o, (CGEntry.tx t p, o) ∈ l → cg'.chain.txPosition (asTx t).txid = some p ∧
      (cg'.graph.getTx (asTx t).txid).map asTx = some (asTx t)) ∧
    (∀ k, (∀ t, InsertsTx l t → (asTx t).txid ≠ k) →
      cg'.chain.txPosition k = cg.chain.txPosition k ∧ cg'.graph.getTx k = cg.graph.getTx k) := by
  have hi := reachable_inv hr
  have hs : Sane cg.chain := ⟨hok, hi.cons, hl⟩
  rw [cgInsertAll_eq hr hs he hns] at h
  obtain ⟨ch, hch, rfl⟩ := Option.map_eq_some_iff.1 h
  obtain ⟨-, r1, r2, r3, r4⟩ := insertAll_result hs he hco hch
  obtain ⟨b0, b1, b2, b3, -⟩ := growAll_spec (l := l) hi.wf
  refine ⟨r1, r2, fun t p o hm => ⟨r3 _ p (inserts_onChain.2 ⟨_, rfl, o, hm⟩), ?_⟩, fun k hk => ⟨r4 k ?_, ?_⟩⟩
  · obtain ⟨y, hy⟩ := Option.ne_none_iff_exists'.1 (b3 t ⟨p, o, hm⟩)
    show ((growAll cg.graph l).getTx _).map asTx = _
    rw [hy]
    have : (asTx y).txid = (asTx t).txid := b0.keys _ _ hy
    rw [Option.map_some, LawfulTx.txid_inj y t this]
  · intro p hp
    obtain ⟨x, hx, o, hm⟩ := inserts_onChain.1 hp
    cases x with
    | block b => cases hx
    | tx t q =>
      have hx : Entry.tx (asTx t).txid q = .tx k p := hx
      injection hx with hx _
      exact hk t ⟨q, o, hm⟩ hx
  · show (growAll cg.graph l).getTx k = _
    cases hx : (growAll cg.graph l).getTx k with
    | some x =>
      rcases b1 k x hx with h | ⟨-, h1, h2⟩
      · exact h.symm
      · exact absurd h2 (hk x h1)
    | none =>
      cases hy : cg.graph.getTx k with
      | none => rfl
      | some y => rw [b2 k y hy] at hx; cases hx

/-- **C75** (chain graphs) two callers that insert the same things in whatever order have the same chain graph afterwards, if
neither was refused: nothing inserted may spend what something else inserted, or something in the chain, spends -/
theorem C75_graph_order (cg c' d' : ChainGraph P T) (l m : CGEntries P T) (hr : Reachable cg) (hok : HeightsOk cg.chain)
    (hl : cg.chain.checkpointLimit = none) (he : EntriesOk (onChain l)) (hco : Coherent (onChain l))
    (hns : NoSharedSpend cg l) (hv : OneVersion l) (hsame : SameThings l m)
    (h : cgInsertAll cg l = some c') (hm : cgInsertAll cg m = some d') : c' = d' := by
  have hi := reachable_inv hr
  have hs : Sane cg.chain := ⟨hok, hi.cons, hl⟩
  rw [cgInsertAll_eq hr hs he hns] at h
  rw [cgInsertAll_eq hr hs (entriesOk_congr (same_onChain hsame) he) (same_noSharedSpend hsame hns)] at hm
  obtain ⟨ch, hch, rfl⟩ := Option.map_eq_some_iff.1 h
  obtain ⟨dh, hdh, rfl⟩ := Option.map_eq_some_iff.1 hm
  rw [C75_order cg.chain ch dh _ _ hok (SparseChain.positionsAgree_of_consistent hi.cons) hl he hco (same_onChain hsame) hch hdh,
    growAll_same hi.wf hv (same_insertsTx hsame)]

/-- **C75** (chain graphs) the recommended order, the blocks from the highest down and then the transactions, is accepted
whenever some order is, with the same result -/
theorem C75_graph_blocks_first (cg c' : ChainGraph P T) (l m : CGEntries P T) (hr : Reachable cg) (hok : HeightsOk cg.chain)
    (hl : cg.chain.checkpointLimit = none) (he : EntriesOk (onChain l)) (hco : Coherent (onChain l))
    (hns : NoSharedSpend cg l) (hv : OneVersion l) (hsame : SameThings l m)
    (h : cgInsertAll cg l = some c') (hf : BlocksFirst (onChain m)) : cgInsertAll cg m = some c' := by
  have hi := reachable_inv hr
  have hs : Sane cg.chain := ⟨hok, hi.cons, hl⟩
  rw [cgInsertAll_eq hr hs he hns] at h
  obtain ⟨ch, hch, rfl⟩ := Option.map_eq_some_iff.1 h
  rw [cgInsertAll_eq hr hs (entriesOk_congr (same_onChain hsame) he) (same_noSharedSpend hsame hns),
    C75_blocks_first cg.chain ch _ _ hok (SparseChain.positionsAgree_of_consistent hi.cons) hl he hco (same_onChain hsame) hch hf,
    growAll_same hi.wf hv (same_insertsTx hsame)]
  rfl

end graph

section examples
open Verif.ChainGraph

/-- a block above the tip, the spender of an output of an unconfirmed transaction, confirmed in it, and an unrelated one -/
def exCGEntries : CGEntries TxHeight DemoTx :=
  [(.block ⟨9, 19⟩, oId), (.tx (d 4) (.confirmed 9), oId), (.tx (d 5) .unconfirmed, oId)]

example : ((cgInsertAll exCG exCGEntries).map fun c => c.chain.txids) =
    some [(.confirmed 5, dId 0), (.confirmed 9, dId 4), (.unconfirmed, dId 1), (.unconfirmed, dId 3), (.unconfirmed, dId 5)] ∧
    cgInsertAll exCG [exCGEntries[2], exCGEntries[0], exCGEntries[1]] = cgInsertAll exCG exCGEntries := by decide

theorem exCGEntries_txs (t : DemoTx) (h : InsertsTx exCGEntries t) : t = d 4 ∨ t = d 5 := by
  obtain ⟨p, o, h⟩ := h
  simp only [exCGEntries, List.mem_cons, List.not_mem_nil, or_false, Prod.mk.injEq] at h
  rcases h with ⟨h, -⟩ | ⟨h, -⟩ | ⟨h, -⟩
  · cases h
  · injection h with h _; exact Or.inl h
  · injection h with h _; exact Or.inr h

theorem exCGEntries_noSharedSpend : NoSharedSpend exCG exCGEntries := by
  constructor
  · intro t t' op h h' h1 h2 hn
    rcases exCGEntries_txs t h with rfl | rfl <;> rcases exCGEntries_txs t' h' with rfl | rfl
    · rfl
    · exact absurd h2 ((by decide : ∀ op ∈ (asTx (d 4)).input, op ∉ (asTx (d 5)).input) op h1)
    · exact absurd h2 ((by decide : ∀ op ∈ (asTx (d 5)).input, op ∉ (asTx (d 4)).input) op h1)
    · rfl
  · intro t c y op h hc hy h1 h2 hn
    exfalso
    obtain ⟨p, hp⟩ := Option.ne_none_iff_exists'.1 hc
    have hk : c ∈ exCG.chain.txidToPos.keys := OMap.mem_keys.2 ⟨p, hp⟩
    have hall : exCG.chain.txidToPos.keys.all (fun c => match exCG.graph.getTx c with
        | some y => (asTx y).input.all fun op => !((asTx (d 4)).input.contains op) && !((asTx (d 5)).input.contains op)
        | none => true) = true := by decide
    have := List.all_eq_true.1 hall c hk
    rw [hy] at this
    have := List.all_eq_true.1 this op h2
    simp only [Bool.and_eq_true, Bool.not_eq_true'] at this
    rcases exCGEntries_txs t h with rfl | rfl
    · have h3 := List.contains_iff_mem.2 h1; rw [this.1] at h3; cases h3
    · have h3 := List.contains_iff_mem.2 h1; rw [this.2] at h3; cases h3

theorem exCGEntries_oneVersion : OneVersion exCGEntries := by
  intro t t' h h' he
  rcases exCGEntries_txs t h with rfl | rfl <;> rcases exCGEntries_txs t' h' with rfl | rfl
  · rfl
  · exact absurd he (by decide)
  · exact absurd he (by decide)
  · rfl

theorem exCGEntries_coherent : Coherent (onChain exCGEntries) ∧ EntriesOk (onChain exCGEntries) := by
  have hb : ∀ b, Inserts (onChain exCGEntries) (.block b) → b = ⟨9, 19⟩ := by
    intro b ⟨ho, h⟩
    have : Entry.block b ∈ (onChain exCGEntries).map Prod.fst := List.mem_map.2 ⟨_, h, rfl⟩
    simpa [onChain, exCGEntries, CGEntry.entry] using this
  have ht : ∀ t p, Inserts (onChain exCGEntries) (.tx t p) →
      (t = dId 4 ∧ p = .confirmed 9) ∨ (t = dId 5 ∧ p = .unconfirmed) := by
    intro t p ⟨ho, h⟩
    have : Entry.tx t p ∈ (onChain exCGEntries).map Prod.fst := List.mem_map.2 ⟨_, h, rfl⟩
    simp only [onChain, exCGEntries, CGEntry.entry, List.map_cons, List.map_nil, List.mem_cons, List.not_mem_nil,
      or_false, Entry.tx.injEq, reduceCtorEq, false_or] at this
    exact this
  refine ⟨⟨fun b b' h h' _ => (hb b h).trans (hb b' h').symm, fun t p p' h h' => ?_⟩,
    fun b h => by rw [hb b h]; decide, fun t p k h hk => ?_⟩
  · rcases ht t p h with ⟨rfl, rfl⟩ | ⟨rfl, rfl⟩ <;> rcases ht _ p' h' with ⟨he, rfl⟩ | ⟨he, rfl⟩ <;>
      first | rfl | exact absurd he (by decide)
  · rcases ht t p h with ⟨-, rfl⟩ | ⟨-, rfl⟩
    · cases hk; decide
    · cases hk

/-- **C75** with conflicting spends the order matters: of two unconfirmed transactions that spend the same output, the one
inserted last remains -/
theorem C75_conflicts_last_wins : ∃ (a b : CGEntry TxHeight DemoTx × Orders TxHeight DemoTx)
    (c' d' : ChainGraph TxHeight DemoTx), cgInsertAll exCG [a, b] = some c' ∧ cgInsertAll exCG [b, a] = some d' ∧
    c'.chain ≠ d'.chain := by
  obtain ⟨c', hc⟩ := Option.isSome_iff_exists.1 (show (cgInsertAll exCG
    [(.tx (d 5) .unconfirmed, oId), (.tx (d 7) .unconfirmed, oId)]).isSome = true by decide)
  obtain ⟨d', hd⟩ := Option.isSome_iff_exists.1 (show (cgInsertAll exCG
    [(.tx (d 7) .unconfirmed, oId), (.tx (d 5) .unconfirmed, oId)]).isSome = true by decide)
  refine ⟨_, _, c', d', hc, hd, fun h => ?_⟩
  have : (cgInsertAll exCG [(.tx (d 5) .unconfirmed, oId), (.tx (d 7) .unconfirmed, oId)]).map (fun c => c.chain) ≠
    (cgInsertAll exCG [(.tx (d 7) .unconfirmed, oId), (.tx (d 5) .unconfirmed, oId)]).map (fun c => c.chain) := by decide
  exact this (by rw [hc, hd, Option.map_some, Option.map_some, h])

example : ∃ c', cgInsertAll exCG exCGEntries = some c' ∧
    c'.chain.txPosition (dId 4) = some (.confirmed 9) ∧ c'.chain.txPosition (dId 3) = some .unconfirmed := by
  obtain ⟨c', hc⟩ := Option.isSome_iff_exists.1 (show (cgInsertAll exCG exCGEntries).isSome = true by decide)
  obtain ⟨-, -, h1, h2⟩ := C75_graph_result exCG c' exCGEntries exCG_reachable exCG_heightsOk (by decide)
    exCGEntries_coherent.2 exCGEntries_coherent.1 exCGEntries_noSharedSpend hc
  refine ⟨c', hc, (h1 (d 4) _ oId (by simp [exCGEntries])).1, (h2 (dId 3) (fun t ht => ?_)).1.trans (by decide)⟩
  rcases exCGEntries_txs t ht with rfl | rfl <;> decide

end examples
end Verif.Props
