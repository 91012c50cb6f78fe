import Verif.Props.ChainGraph
import Verif.Spec.Exchange

/-!
# Property C74: two parties that exchange their states agree

`a` takes the state of `b` as an update and becomes `a'`; `b` then takes `a'` as an update and becomes `b'`.
-/

set_option linter.unusedSectionVars false

namespace Verif.Props
open Verif Verif.Spec

section chain
open Verif.SparseChain
variable {P : Type} [LinearOrder P] [ChainPosition P] [LawfulChainPosition P]

/-- chains with the same blocks, positions and limit are the same value -/
theorem chain_ext {a b : SparseChain P} (ha : Consistent a) (hb : Consistent b)
    (h1 : ∀ k, a.checkpointAt k = b.checkpointAt k) (h2 : ∀ t, a.txPosition t = b.txPosition t)
    (h3 : a.checkpointLimit = b.checkpointLimit) : a = b := by
  refine ext_of_consistent ha hb (fun k => ?_) h2 h3
  have := h1 k
  unfold checkpointAt at this
  cases hx : a.checkpoints.get k with
  | none =>
    rw [hx] at this
    cases hy : b.checkpoints.get k with
    | none => rfl
    | some y => rw [hy] at this; cases this
  | some x =>
    rw [hx] at this
    cases hy : b.checkpoints.get k with
    | none => rw [hy] at this; cases this
    | some y => rw [hy] at this; simp at this; rw [this]

/-- what is known of a chain `x` after an update was accepted -/
theorem after_update {a b a' : SparseChain P} {ho : HashOrder (Txid × P)} {cs : ChangeSet P}
    (hok : HeightsOk a) (hokb : HeightsOk b) (hc : Consistent a) (hl : a.checkpointLimit = none)
    (h : a.applyUpdate b ho = (a', .ok cs)) : HeightsOk a' ∧ Consistent a' ∧ a'.checkpointLimit = none := by
  have hdef : a' = a.step (.applyUpdate b ho) := by
    show a' = (a.applyUpdate b ho).1
    rw [h]
  refine ⟨by rw [hdef]; exact step_heightsOk hok hc _ hokb, by rw [hdef]; exact step_consistent a _ hc, ?_⟩
  have := h
  unfold applyUpdate at this
  split at this
  · cases this
  · simp only [Prod.mk.injEq] at this; rw [← this.1, applyChangeset_limit]; exact hl

/-- `b` takes in a chain `u` that has all of `b`'s blocks and moves none of `b`'s transactions: accepted, nothing invalidated -/
theorem takes_extension {b u : SparseChain P} (ho : HashOrder (Txid × P))
    (hok : HeightsOk b) (hc : Consistent b) (hl : b.checkpointLimit = none)
    (hcp : ∀ k, HasCp b k → u.checkpointAt k = b.checkpointAt k)
    (htx : ∀ t p q, b.txPosition t = some p → u.txPosition t = some q → p = q) :
    ∃ b' cs, b.applyUpdate u ho = (b', .ok cs) ∧
      (∀ k, b'.checkpointAt k = u.checkpointAt k) ∧
      (∀ t, b'.txPosition t = (u.txPosition t).or (b.txPosition t)) := by
  have hinv : ∀ f, ¬ FirstInvalid b u f := fun f hf => by
    obtain ⟨x, hx⟩ := hf.2.1
    exact absurd (hf.2.2.1 f ⟨x, hx, by rw [hcp f ⟨x, hx⟩, hx]⟩) (lt_irrefl _)
  obtain ⟨cs, hcs⟩ := (determine_ok_iff (u := u) (ho := ho) hok).2
    ⟨fun f hf => hinv f hf.1, fun t p q hm => hm.2.2.1 (htx t p q hm.1 hm.2.1)⟩
  have h : b.applyUpdate u ho = (b.applyChangeset cs, .ok cs) := by
    unfold applyUpdate; rw [hcs]
  have hp := positionsAgree_of_consistent hc
  refine ⟨_, cs, h, fun k => ?_, fun t => ?_⟩
  · obtain ⟨h1, -, h3⟩ := C03_checkpoints_after_update b u _ ho cs hok hp hl h k
    by_cases hu : HasCp u k
    · exact h1 hu
    · rw [h3 hu (fun ⟨f, hf, _⟩ => hinv f hf)]
      cases hb : b.checkpointAt k with
      | none =>
        cases hu' : u.checkpointAt k with
        | none => rfl
        | some x => exact absurd ⟨x, hu'⟩ hu
      | some x => rw [hcp k ⟨x, hb⟩, hb]
  · obtain ⟨h1, h2, -, h4⟩ := C03_positions_after_update b u _ ho cs hok hp h t
    cases hu : u.txPosition t with
    | some q => rw [h1 q hu]; rfl
    | none =>
      cases hb : b.txPosition t with
      | none => rw [h2 hu hb]; rfl
      | some p => rw [h4 p hu hb (fun ⟨k, _, f, hf, _⟩ => hinv f hf)]; rfl

/-- **C74** (chains) if `a` accepted `b`'s chain, then `b` accepts the result, whatever the order the hash maps are read
in, and both hold exactly the same chain; every block and every position `b` had is in it -/
theorem C74_chains_agree (a b a' : SparseChain P) (ho ho' : HashOrder (Txid × P)) (cs : ChangeSet P)
    (hoka : HeightsOk a) (hokb : HeightsOk b) (ha : PositionsAgree a) (hb : PositionsAgree b)
    (hla : a.checkpointLimit = none) (hlb : b.checkpointLimit = none)
    (h : a.applyUpdate b ho = (a', .ok cs)) :
    ∃ cs', b.applyUpdate a' ho' = (a', .ok cs') := by
  have hca := consistent_of_positionsAgree ha
  have hcb := consistent_of_positionsAgree hb
  obtain ⟨hok', hc', hl'⟩ := after_update hoka hokb hca hla h
  obtain ⟨b', cs', h', h1, h2⟩ := takes_extension (u := a') ho' hokb hcb hlb
    (fun k hk => (C03_checkpoints_after_update a b a' ho cs hoka ha hla h k).1 hk)
    (fun t p q hp hq => by
      have := (C03_positions_after_update a b a' ho cs hoka ha h t).1 p hp
      rw [this] at hq; cases hq; rfl)
  obtain ⟨-, hcb', hlb'⟩ := after_update hokb hok' hcb hlb h'
  have he : b' = a' := chain_ext hcb' hc' h1 (fun t => by
    rw [h2]
    cases hb' : b.txPosition t with
    | none => rw [Option.or_none]
    | some p => rw [(C03_positions_after_update a b a' ho cs hoka ha h t).1 p hb']; rfl) (hlb'.trans hl'.symm)
  exact ⟨cs', by rw [h', he]⟩

end chain

section graph
open Verif.ChainGraph
variable {P T : Type} [LinearOrder P] [ChainPosition P] [LawfulChainPosition P]
  [AsTransaction T] [LawfulTx T] [LinearOrder T]

theorem reachVia_first {g : TxGraph T} {start acc : Txid → Prop} {c : Txid} (h : ReachVia g start acc c) (hc : acc c) :
    ∃ r, start r ∧ acc r := by
  induction h with
  | start hs => exact ⟨_, hs, hc⟩
  | step _ hp _ ih => exact ih hp

/-- the content of a transaction does not depend on where it is stored -/
theorem same_content {g g' : TxGraph T} (h : TxGraph.WF g) (h' : TxGraph.WF g') {t : Txid} {x y : T}
    (hx : g.getTx t = some x) (hy : g'.getTx t = some y) : asTx x = asTx y :=
  LawfulTx.txid_inj x y ((h.keys _ _ hx).trans (h'.keys _ _ hy).symm)

/-- no transaction of `u` that `b` lacks spends what a transaction of `b` spends -/
def NoClash (b u : ChainGraph P T) : Prop :=
  ∀ t c x y op, InChain u.chain t → ¬ InChain b.chain t → InChain b.chain c → u.graph.getTx t = some x →
    b.graph.getTx c = some y → op ∈ (asTx x).input → op ∈ (asTx y).input → op.isNull = false → False

theorem cg_limit {b u : ChainGraph P T} {o : Orders P T} :
    (b.applyUpdate u o).1.chain.checkpointLimit = b.chain.checkpointLimit := by
  unfold ChainGraph.applyUpdate ChainGraph.applyOk
  split
  · exact SparseChain.applyChangeset_limit _ _
  · rfl

/-- `b` takes in a chain graph that has all of its blocks, moves none of its transactions and displaces nothing -/
theorem cg_takes {b u : ChainGraph P T} (o : Orders P T) (hb : Reachable b) (hu : Reachable u)
    (hok : HeightsOk b.chain) (hoku : HeightsOk u.chain) (hl : b.chain.checkpointLimit = none)
    (hcp : ∀ k, HasCp b.chain k → u.chain.checkpointAt k = b.chain.checkpointAt k)
    (htx : ∀ t p q, b.chain.txPosition t = some p → u.chain.txPosition t = some q → p = q)
    (hclash : NoClash b u) :
    ∃ b' cs, b.applyUpdate u o = (b', .ok cs) ∧ b'.graph = (b.graph.applyUpdate u.graph o.graph).1 ∧
      b'.chain = (b.chain.applyUpdate u.chain o.chain).1 ∧
      (∀ k, b'.chain.checkpointAt k = u.chain.checkpointAt k) ∧
      (∀ t, b'.chain.txPosition t = (u.chain.txPosition t).or (b.chain.txPosition t)) := by
  have hi := reachable_inv hb
  have hui := reachable_inv hu
  obtain ⟨ch, cs0, h0, h1, h2⟩ := takes_extension o.chain hok hi.cons hl hcp htx
  obtain ⟨-, h26⟩ := C26_update b u hb hu o
  rw [h0] at h26
  obtain ⟨g1, g2, -⟩ := h26 cs0 rfl
  have hD : ∀ t c, ¬ Displaces b.chain ch b.graph (b.graph.applyUpdate u.graph o.graph).1 t c := by
    rintro t c ⟨d1, d2, x, d3, d4, d5⟩
    obtain ⟨r, ⟨vin, op, e1, ⟨y, e2, e3, e4⟩, e5⟩, e6⟩ := reachVia_first d5 d4
    have hut : InChain u.chain t := by
      intro hn
      apply d2
      rw [h2, hn]
      exact not_not.1 d1
    obtain ⟨x', hx'⟩ := hui.full t hut
    have hxx : asTx x = asTx x' := by
      rw [TxGraph.applyUpdate_getTx hui.wf.keys] at d3
      cases hbx : b.graph.getTx t with
      | none => rw [hbx, Option.none_or, hx'] at d3; cases d3; rfl
      | some z => rw [hbx] at d3; cases d3; exact same_content hi.wf hui.wf hbx hx'
    refine hclash t r x' y op hut d1 e6 hx' e2 ?_ e3 e4
    rw [← hxx]; exact List.mem_of_getElem? e1
  obtain ⟨cs', hcs'⟩ := g1.2 (fun t c hd => absurd hd (hD t c))
  obtain ⟨k1, k2, -, k4⟩ := g2 cs' hcs'
  have hpos : ∀ t, (b.applyUpdate u o).1.chain.txPosition t = ch.txPosition t :=
    fun t => k4 t (fun ⟨s, hs⟩ => hD s t hs)
  refine ⟨(b.applyUpdate u o).1, cs', by rw [← hcs'], k1, ?_, fun k => by rw [k2 k, h1 k],
    fun t => by rw [hpos, h2]⟩
  rw [h0]
  obtain ⟨-, hch, hlch⟩ := after_update hok hoku hi.cons hl h0
  exact chain_ext (reachable_inv (Reachable.applyUpdate o hb hu)).cons hch k2 hpos
    (by rw [cg_limit, hl, hlch])

/-- two transactions of one chain graph that spend the same output are the same -/
theorem no_clash_in {g : ChainGraph P T} (hi : Inv g) {g1 g2 : TxGraph T} (w1 : TxGraph.WF g1) (w2 : TxGraph.WF g2)
    {t c : Txid} {x y : T} {op : OutPoint} (ht : InChain g.chain t) (hc : InChain g.chain c) (hx : g1.getTx t = some x)
    (hy : g2.getTx c = some y) (h1 : op ∈ (asTx x).input) (h2 : op ∈ (asTx y).input) (h3 : op.isNull = false) : t = c := by
  obtain ⟨x', hx'⟩ := hi.full t ht
  obtain ⟨y', hy'⟩ := hi.full c hc
  refine hi.nods t c x' y' op ht hc hx' hy' ?_ ?_ h3
  · rw [← same_content w1 hi.wf hx hx']; exact h1
  · rw [← same_content w2 hi.wf hy hy']; exact h2

/-- what `a'` is after it took in `b` -/
structure TookIn (a b a' : ChainGraph P T) (ho : HashOrder (Txid × TxNode T)) : Prop where
  reach : Reachable a'
  heights : HeightsOk a'.chain
  limit : a'.chain.checkpointLimit = none
  blocks : ∀ k, HasCp b.chain k → a'.chain.checkpointAt k = b.chain.checkpointAt k
  kept : ∀ t p, b.chain.txPosition t = some p → a'.chain.txPosition t = some p ∨
    (a'.chain.txPosition t = none ∧ InChain a.chain t)
  source : ∀ t, InChain a'.chain t → InChain b.chain t ∨ InChain a.chain t
  graph : a'.graph = (a.graph.applyUpdate b.graph ho).1

theorem tookIn {a b a' : ChainGraph P T} {o : Orders P T} {cs : CGChangeSet P T} (ha : Reachable a) (hb : Reachable b)
    (hoka : HeightsOk a.chain) (hokb : HeightsOk b.chain) (hl : a.chain.checkpointLimit = none)
    (h : a.applyUpdate b o = (a', .ok cs)) : TookIn a b a' o.graph := by
  have hi := reachable_inv ha
  have ha' : a' = (a.applyUpdate b o).1 := by rw [h]
  obtain ⟨h1, h2⟩ := C26_update a b ha hb o
  have hcs : (a.applyUpdate b o).2 = .ok cs := by rw [h]
  cases hp : a.chain.applyUpdate b.chain o.chain with
  | mk pl r =>
    rw [hp] at h1 h2
    cases r with
    | error e => rw [h1 e rfl] at hcs; cases hcs
    | ok cs0 =>
      obtain ⟨-, g2, -⟩ := h2 cs0 rfl
      obtain ⟨k1, k2, k3, k4⟩ := g2 cs hcs
      rw [← ha'] at k1 k2 k3 k4
      have hpa := SparseChain.positionsAgree_of_consistent hi.cons
      obtain ⟨hokp, -, -⟩ := after_update hoka hokb hi.cons hl hp
      have hpos : ∀ t, a'.chain.txPosition t = none ∨ a'.chain.txPosition t = pl.txPosition t := by
        intro t
        by_cases hd : ∃ s, Displaces a.chain pl a.graph (a.graph.applyUpdate b.graph o.graph).1 s t
        · exact .inl (k3 t hd)
        · exact .inr (k4 t hd)
      refine ⟨ha' ▸ Reachable.applyUpdate o ha hb, ⟨?_, ?_⟩, by rw [ha', cg_limit, hl], ?_, ?_, ?_, k1⟩
      · rintro k ⟨x, hx⟩
        exact hokp.1 k ⟨x, by rw [← k2]; exact hx⟩
      · intro t p k hq
        rcases hpos t with hn | hn
        · rw [hn] at hq; cases hq
        · rw [hn] at hq; exact hokp.2 t p k hq
      · intro k hk
        rw [k2 k]
        exact (C03_checkpoints_after_update a.chain b.chain pl o.chain cs0 hoka hpa hl hp k).1 hk
      · intro t p hq
        by_cases hd : ∃ s, Displaces a.chain pl a.graph (a.graph.applyUpdate b.graph o.graph).1 s t
        · obtain ⟨s, hs⟩ := hd
          exact .inr ⟨k3 t ⟨s, hs⟩, hs.2.2.choose_spec.2.1⟩
        · left
          rw [k4 t hd]
          exact (C03_positions_after_update a.chain b.chain pl o.chain cs0 hoka hpa hp t).1 p hq
      · intro t ht
        by_contra hn
        rw [not_or] at hn
        rcases hpos t with hn' | hn'
        · exact ht hn'
        · apply ht
          rw [hn']
          exact (C03_positions_after_update a.chain b.chain pl o.chain cs0 hoka hpa hp t).2.1 (not_not.1 hn.1)
            (not_not.1 hn.2)

/-- **C74** the answer is always accepted: if `a` accepted `b`'s state and became `a'`, then `b` accepts `a'`.  Afterwards
`b'` has exactly the blocks of `a'`, and the transactions of `a'` at the positions of `a'`; besides, it still has those of its
own transactions that `a` evicted. -/
theorem C74_answer_accepted (a b a' : ChainGraph P T) (o o' : Orders P T) (cs : CGChangeSet P T)
    (ha : Reachable a) (hb : Reachable b) (hoka : HeightsOk a.chain) (hokb : HeightsOk b.chain)
    (hla : a.chain.checkpointLimit = none) (hlb : b.chain.checkpointLimit = none)
    (h : a.applyUpdate b o = (a', .ok cs)) :
    ∃ b' cs', b.applyUpdate a' o' = (b', .ok cs') ∧
      (∀ k, b'.chain.checkpointAt k = a'.chain.checkpointAt k) ∧
      (∀ t p, a'.chain.txPosition t = some p → b'.chain.txPosition t = some p) ∧
      (∀ t, ¬ InChain a'.chain t → b'.chain.txPosition t = b.chain.txPosition t) := by
  have hf := tookIn ha hb hoka hokb hla h
  have hi := reachable_inv ha
  have hbi := reachable_inv hb
  have hi' := reachable_inv hf.reach
  obtain ⟨b', cs', g1, -, -, g2, g3⟩ := cg_takes o' hb hf.reach hokb hf.heights hlb hf.blocks
    (fun t p q hp hq => by
      rcases hf.kept t p hp with hk | ⟨hk, -⟩
      · rw [hk] at hq; cases hq; rfl
      · rw [hk] at hq; cases hq)
    (fun t c x y op ht htb hc hx hy h1 h2 h3 => by
      have hta : InChain a.chain t := (hf.source t ht).resolve_left htb
      obtain ⟨p, hp⟩ := Option.ne_none_iff_exists'.1 hc
      have : t = c := by
        rcases hf.kept c p hp with hk | ⟨-, hk⟩
        · exact no_clash_in hi' hi'.wf hbi.wf ht (by unfold InChain; rw [hk]; simp) hx hy h1 h2 h3
        · exact no_clash_in hi hi'.wf hbi.wf hta hk hx hy h1 h2 h3
      exact htb (this ▸ hc))
  refine ⟨b', cs', g1, g2, fun t p hp => by rw [g3, hp]; rfl, fun t ht => ?_⟩
  rw [g3, not_not.1 ht]; rfl

/-- **C74** `a` evicts nothing of what `b` has, provided `b` has the parents of the transactions they share -/
theorem C74_nothing_evicted (a b a' : ChainGraph P T) (o : Orders P T) (cs : CGChangeSet P T)
    (ha : Reachable a) (hb : Reachable b) (hps : ParentsShared a b)
    (h : a.applyUpdate b o = (a', .ok cs)) (t : Txid) (p : P) (ht : b.chain.txPosition t = some p) :
    a'.chain.txPosition t = some p := by
  have hi := reachable_inv ha
  have hbi := reachable_inv hb
  have ha' : a' = (a.applyUpdate b o).1 := by rw [h]
  obtain ⟨h1, h2⟩ := C26_update a b ha hb o
  have hcs : (a.applyUpdate b o).2 = .ok cs := by rw [h]
  cases hp : a.chain.applyUpdate b.chain o.chain with
  | mk pl r =>
    rw [hp] at h1 h2
    cases r with
    | error e => rw [h1 e rfl] at hcs; cases hcs
    | ok cs0 =>
      obtain ⟨-, g2, -⟩ := h2 cs0 rfl
      obtain ⟨-, -, -, k4⟩ := g2 cs hcs
      rw [← ha'] at k4
      obtain ⟨cs1, hdet, hpl⟩ : ∃ cs1, a.chain.determineChangeset b.chain o.chain = .ok cs1 ∧
          pl = a.chain.applyChangeset cs1 := by
        unfold SparseChain.applyUpdate at hp
        cases hd : a.chain.determineChangeset b.chain o.chain with
        | error e => rw [hd] at hp; simp at hp
        | ok c' => rw [hd] at hp; simp at hp; exact ⟨c', rfl, hp.1.symm⟩
      have hdp := SparseChain.determine_pos hi.cons hdet
      rw [← hpl] at hdp
      have hnot : ¬ ∃ s, Displaces a.chain pl a.graph (a.graph.applyUpdate b.graph o.graph).1 s t := by
        rintro ⟨s, d1, d2, x, d3, d4, d5⟩
        have hsb : InChain b.chain s := fun hn => d2 ((hdp s).2.1 hn (not_not.1 d1))
        obtain ⟨x', hx'⟩ := hbi.full s hsb
        have hxx : asTx x = asTx x' := by
          rw [TxGraph.applyUpdate_getTx hbi.wf.keys] at d3
          cases hbx : a.graph.getTx s with
          | none => rw [hbx, Option.none_or, hx'] at d3; cases d3; rfl
          | some z => rw [hbx] at d3; cases d3; exact same_content hi.wf hbi.wf hbx hx'
        have key : ∀ c, ReachVia a.graph (fun t => ∃ vin, ConflictsAt a.graph (asTx x) vin t) (InChain a.chain) c →
            InChain a.chain c → InChain b.chain c → False := by
          intro c hc
          induction hc with
          | start hst =>
            intro hca hcb
            obtain ⟨vin, op, e1, ⟨y, e2, e3, e4⟩, e5⟩ := hst
            have := no_clash_in hbi hbi.wf hi.wf hsb hcb hx' e2 (by rw [← hxx]; exact List.mem_of_getElem? e1) e3 e4
            exact d1 (this ▸ hca)
          | step _ hacc hch ih =>
            intro hca hcb
            exact ih hacc (hps _ _ hacc hca hcb hch)
        exact key t d5 d4 (by unfold InChain; rw [ht]; simp)
      rw [k4 t hnot]
      exact (hdp t).1 p ht

/-- **C74** they agree at once exactly if nothing of `b` was evicted -/
theorem C74_agree_iff (a b a' b' : ChainGraph P T) (o o' : Orders P T) (cs cs' : CGChangeSet P T)
    (ha : Reachable a) (hb : Reachable b) (hoka : HeightsOk a.chain) (hokb : HeightsOk b.chain)
    (hla : a.chain.checkpointLimit = none) (hlb : b.chain.checkpointLimit = none)
    (h : a.applyUpdate b o = (a', .ok cs)) (h' : b.applyUpdate a' o' = (b', .ok cs')) :
    b'.chain = a'.chain ↔ ∀ t, InChain b.chain t → InChain a'.chain t := by
  have hf := tookIn ha hb hoka hokb hla h
  obtain ⟨b'', cs'', e, g1, g2, g3⟩ := C74_answer_accepted a b a' o o' cs ha hb hoka hokb hla hlb h
  rw [h'] at e; cases e
  have hf' := tookIn hb hf.reach hokb hf.heights hlb h'
  constructor
  · intro he t ht hn
    have := g3 t (fun hh => hh hn)
    rw [he, hn] at this
    exact ht this.symm
  · intro hall
    refine chain_ext (reachable_inv hf'.reach).cons (reachable_inv hf.reach).cons g1 (fun t => ?_)
      (hf'.limit.trans hf.limit.symm)
    cases hp : a'.chain.txPosition t with
    | some p => exact g2 t p hp
    | none =>
      have hn : ¬ InChain a'.chain t := fun hh => hh hp
      rw [g3 t hn]
      exact not_not.1 (fun hh => hn (hall t hh))

/-- **C74** otherwise one more exchange settles it: `a'` accepts `b'`, and then both hold exactly the same chain -/
theorem C74_agree_after_three (a b a' b' : ChainGraph P T) (o o' o'' : Orders P T) (cs cs' : CGChangeSet P T)
    (ha : Reachable a) (hb : Reachable b) (hoka : HeightsOk a.chain) (hokb : HeightsOk b.chain)
    (hla : a.chain.checkpointLimit = none) (hlb : b.chain.checkpointLimit = none)
    (h : a.applyUpdate b o = (a', .ok cs)) (h' : b.applyUpdate a' o' = (b', .ok cs')) :
    ∃ a'' cs'', a'.applyUpdate b' o'' = (a'', .ok cs'') ∧ a''.chain = b'.chain := by
  have hf := tookIn ha hb hoka hokb hla h
  obtain ⟨b'', cs'', e, g1, g2, g3⟩ := C74_answer_accepted a b a' o o' cs ha hb hoka hokb hla hlb h
  rw [h'] at e; cases e
  have hf' := tookIn hb hf.reach hokb hf.heights hlb h'
  have hi := reachable_inv ha
  have hbi := reachable_inv hb
  have hi' := reachable_inv hf.reach
  have hbi' := reachable_inv hf'.reach
  obtain ⟨a'', cs2, k1, -, -, k2, k3⟩ := cg_takes o'' hf.reach hf'.reach hf.heights hf'.heights hf.limit
    (fun k _ => g1 k) (fun t p q hp hq => by rw [g2 t p hp] at hq; cases hq; rfl)
    (fun t c x y op ht hta hc hx hy h1 h2 h3 => by
      have htb : InChain b.chain t := by
        intro hn
        apply ht
        rw [g3 t hta, hn]
      obtain ⟨p, hp⟩ := Option.ne_none_iff_exists'.1 htb
      have : t = c := by
        rcases hf.source c hc with hcb | hca
        · exact no_clash_in hbi hbi'.wf hi'.wf htb hcb hx hy h1 h2 h3
        · rcases hf.kept t p hp with hk | ⟨-, hk⟩
          · exact absurd (by unfold InChain; rw [hk]; simp) hta
          · exact no_clash_in hi hbi'.wf hi'.wf hk hca hx hy h1 h2 h3
      exact hta (this ▸ hc))
  refine ⟨a'', cs2, k1, ?_⟩
  have hf'' := tookIn hf.reach hf'.reach hf.heights hf'.heights hf.limit k1
  refine chain_ext (reachable_inv hf''.reach).cons hbi'.cons k2 (fun t => ?_) (hf''.limit.trans hf'.limit.symm)
  rw [k3]
  cases hp : b'.chain.txPosition t with
  | some p => rfl
  | none =>
    cases hq : a'.chain.txPosition t with
    | none => rfl
    | some q => rw [g2 t q hq] at hp; cases hp

/-- **C74** after the exchange both know the same transactions (up to witness data) and the same outputs; the graphs are the
same value if both started with the same versions of what they share -/
theorem C74_graphs_agree (a b a' b' : ChainGraph P T) (o o' : Orders P T) (cs cs' : CGChangeSet P T)
    (ha : Reachable a) (hb : Reachable b) (hoka : HeightsOk a.chain) (hokb : HeightsOk b.chain)
    (hla : a.chain.checkpointLimit = none) (hlb : b.chain.checkpointLimit = none)
    (h : a.applyUpdate b o = (a', .ok cs)) (h' : b.applyUpdate a' o' = (b', .ok cs')) :
    (∀ k, (b'.graph.getTx k).map asTx = (a'.graph.getTx k).map asTx) ∧
    (∀ op, b'.graph.getTxout op = a'.graph.getTxout op) ∧
    (SameVersions a.graph b.graph → b'.graph = a'.graph) := by
  have hf := tookIn ha hb hoka hokb hla h
  have hf' := tookIn hb hf.reach hokb hf.heights hlb h'
  have hi := reachable_inv ha
  have hbi := reachable_inv hb
  have hi' := reachable_inv hf.reach
  have hbi' := reachable_inv hf'.reach
  have e1 : ∀ k, a'.graph.getTx k = (a.graph.getTx k).or (b.graph.getTx k) := fun k => by
    rw [hf.graph, TxGraph.applyUpdate_getTx hbi.wf.keys]
  have e2 : ∀ k, b'.graph.getTx k = (b.graph.getTx k).or (a'.graph.getTx k) := fun k => by
    rw [hf'.graph, TxGraph.applyUpdate_getTx hi'.wf.keys]
  have htx : ∀ k, (b'.graph.getTx k).map asTx = (a'.graph.getTx k).map asTx := by
    intro k
    rw [e2, e1]
    cases hx : a.graph.getTx k with
    | none => cases b.graph.getTx k <;> rfl
    | some x =>
      cases hy : b.graph.getTx k with
      | none => rfl
      | some y => simp [same_content hi.wf hbi.wf hx hy]
  have hout : ∀ op, b'.graph.getTxout op = a'.graph.getTxout op := by
    intro op
    cases hx : a'.graph.getTx op.txid with
    | some x =>
      have := htx op.txid
      rw [hx] at this
      obtain ⟨y, hy, hxy⟩ := Option.map_eq_some_iff.1 this
      rw [TxGraph.getTxout_whole hx, TxGraph.getTxout_whole hy, hxy]
    | none =>
      have hx1 := hx
      rw [e1] at hx1
      have hb1 : b.graph.getTx op.txid = none := (Option.or_eq_none_iff.1 hx1).2
      have f1 : a'.graph.getTxout op = (b.graph.getTxout op).or (a.graph.getTxout op) := by
        rw [hf.graph, TxGraph.applyUpdate_getTxout hbi.wf.keys, hx1]
      have f2 : b'.graph.getTxout op = (a'.graph.getTxout op).or (b.graph.getTxout op) := by
        rw [hf'.graph, TxGraph.applyUpdate_getTxout hi'.wf.keys, hb1, hx]; rfl
      rw [f2, f1]
      cases b.graph.getTxout op <;> cases a.graph.getTxout op <;> rfl
  refine ⟨htx, hout, fun hv => TxGraph.ext_of_wf hbi'.wf hi'.wf (fun k => ?_) hout⟩
  rw [e2, e1]
  cases hx : a.graph.getTx k with
  | none => cases b.graph.getTx k <;> rfl
  | some x =>
    cases hy : b.graph.getTx k with
    | none => rfl
    | some y => simp [hv k x y hx hy]

/-- **C74** in short: two parties that share the parents of what both have, and have the same versions, hold the same value
after one exchange -/
theorem C74_same_value (a b a' : ChainGraph P T) (o o' : Orders P T) (cs : CGChangeSet P T)
    (ha : Reachable a) (hb : Reachable b) (hoka : HeightsOk a.chain) (hokb : HeightsOk b.chain)
    (hla : a.chain.checkpointLimit = none) (hlb : b.chain.checkpointLimit = none)
    (hps : ParentsShared a b) (hv : SameVersions a.graph b.graph)
    (h : a.applyUpdate b o = (a', .ok cs)) : ∃ cs', b.applyUpdate a' o' = (a', .ok cs') := by
  obtain ⟨b', cs', h', -⟩ := C74_answer_accepted a b a' o o' cs ha hb hoka hokb hla hlb h
  have h1 := (C74_agree_iff a b a' b' o o' cs cs' ha hb hoka hokb hla hlb h h').2 (fun t ht => by
    obtain ⟨p, hp⟩ := Option.ne_none_iff_exists'.1 ht
    unfold InChain
    rw [C74_nothing_evicted a b a' o cs ha hb hps h t p hp]; simp)
  have h2 := (C74_graphs_agree a b a' b' o o' cs cs' ha hb hoka hokb hla hlb h h').2.2 hv
  refine ⟨cs', ?_⟩
  rw [h']
  cases b'; cases a'
  simp only at h1 h2
  rw [h1, h2]

theorem parentsShared_of {a b : ChainGraph P T} (ha : Reachable a)
    (h : a.chain.txidToPos.keys.all (fun c => match a.graph.getTx c with
      | some y => (asTx y).input.all fun op => op.isNull || !(b.chain.txPosition c).isSome ||
          !(a.chain.txPosition op.txid).isSome || (b.chain.txPosition op.txid).isSome
      | none => true) = true) : ParentsShared a b := by
  rintro p c hp hc hcb ⟨v, hv⟩
  obtain ⟨q, hq⟩ := Option.ne_none_iff_exists'.1 hc
  have := List.all_eq_true.1 h c (OMap.mem_keys.2 ⟨q, hq⟩)
  obtain ⟨y, hy, hin, hnull⟩ := ((reachable_inv ha).wf.spends.1 _ _).1 hv
  rw [hy] at this
  have := List.all_eq_true.1 this _ hin
  rw [hnull] at this
  unfold InChain at hp hcb ⊢
  cases h1 : a.chain.txPosition p with
  | none => exact absurd h1 hp
  | some _ =>
    cases h2 : b.chain.txPosition c with
    | none => exact absurd h2 hcb
    | some _ =>
      rw [h1, h2] at this
      intro h3
      rw [h3] at this
      simp at this

theorem sameVersions_of {g g' : TxGraph T}
    (h : g.txs.keys.all (fun k => match g.getTx k, g'.getTx k with
      | some x, some y => decide (x = y)
      | _, _ => true) = true) : SameVersions g g' := by
  intro k x y hx hy
  have := List.all_eq_true.1 h k (OMap.mem_keys.2 ⟨_, TxGraph.getTx_eq.1 hx⟩)
  rw [hx, hy] at this
  exact of_decide_eq_true this

end graph

/-! ### concrete parties -/

section examples
open Verif.ChainGraph

/-- knows one block more than `exCG`, and transaction 2, which conflicts with 1 -/
def exPartner : ChainGraph TxHeight DemoTx :=
  ChainGraph.empty.run [.insertCheckpoint ⟨5, 15⟩ oId, .insertCheckpoint ⟨8, 18⟩ oId, .insertCheckpoint ⟨9, 19⟩ oId,
    .insertTx (d 0) (.confirmed 5) oId, .insertTx (d 2) .unconfirmed oId]

/-- in addition it has transaction 3 without its parent 1 -/
def exOrphan : ChainGraph TxHeight DemoTx := exPartner.run [.insertTx (d 3) .unconfirmed oId]

theorem exPartner_reachable : Reachable exPartner :=
  run_reachable .empty _ (by intro op hop; simp at hop; rcases hop with rfl | rfl | rfl | rfl | rfl <;> trivial)

theorem exOrphan_reachable : Reachable exOrphan :=
  run_reachable exPartner_reachable _ (by intro op hop; simp at hop; rcases hop with rfl; trivial)

theorem exCG_heightsOk : HeightsOk exCG.chain := SparseChain.heightsOk_of_B (by decide +kernel)
theorem exPartner_heightsOk : HeightsOk exPartner.chain := SparseChain.heightsOk_of_B (by decide +kernel)
theorem exOrphan_heightsOk : HeightsOk exOrphan.chain := SparseChain.heightsOk_of_B (by decide +kernel)

/-- all hypotheses of `C74_same_value` are met, and the exchange changes both sides: `exCG` loses 1 and 3, gets block 9 and 2 -/
example : Reachable exCG ∧ Reachable exPartner ∧ HeightsOk exCG.chain ∧ HeightsOk exPartner.chain ∧
    exCG.chain.checkpointLimit = none ∧ exPartner.chain.checkpointLimit = none ∧ ParentsShared exCG exPartner ∧
    SameVersions exCG.graph exPartner.graph ∧
    (∃ a' cs, exCG.applyUpdate exPartner oId = (a', .ok cs) ∧ a' ≠ exCG ∧ a' ≠ exPartner ∧
      a'.chain.txPosition (dId 1) = none ∧ a'.chain.txPosition (dId 3) = none ∧
      a'.chain.txPosition (dId 2) = some .unconfirmed) :=
  ⟨exCG_reachable, exPartner_reachable, exCG_heightsOk, exPartner_heightsOk, by decide +kernel, by decide +kernel,
    parentsShared_of exCG_reachable (by decide +kernel), sameVersions_of (by decide +kernel), _, _, rfl, by decide +kernel, by decide +kernel, by decide +kernel,
    by decide +kernel, by decide +kernel⟩

/-- **C74** without shared parents one exchange is not enough: `exCG` evicts the orphan 3 together with 1, and `exOrphan`
keeps it when it takes the answer -/
theorem C74_orphan_survives : ∃ (a b a' b' : ChainGraph TxHeight DemoTx) (cs cs' : CGChangeSet TxHeight DemoTx),
    Reachable a ∧ Reachable b ∧ HeightsOk a.chain ∧ HeightsOk b.chain ∧ a.chain.checkpointLimit = none ∧
    b.chain.checkpointLimit = none ∧ a.applyUpdate b oId = (a', .ok cs) ∧ b.applyUpdate a' oId = (b', .ok cs') ∧
    a'.chain.txPosition (dId 3) = none ∧ b'.chain.txPosition (dId 3) = some .unconfirmed := by
  refine ⟨exCG, exOrphan, _, _, _, _, exCG_reachable, exOrphan_reachable, exCG_heightsOk, exOrphan_heightsOk,
    by decide +kernel, by decide +kernel, rfl, rfl, by decide +kernel, by decide +kernel⟩

end examples

end Verif.Props
