import Verif.Lemmas.ChainGraph2
import Verif.Props.SparseChain
import Verif.Props.TxGraph

/-!
# Properties C24–C29 (ChainGraph)

`ChainGraph.Reachable cg`: `cg` can be built with the public methods (see `Verif.Model.ChainGraph`).
-/

set_option linter.unusedSectionVars false

namespace Verif.Props
open Verif Verif.Spec Verif.ChainGraph

section
variable {P T : Type} [LinearOrder P] [ChainPosition P] [LawfulChainPosition P]
  [AsTransaction T] [LawfulTx T] [LinearOrder T]

/-! ### a concrete chain graph -/

/-- orders used by the examples -/
abbrev oId : Orders TxHeight DemoTx := Orders.id _ _

/-- two checkpoints, the coinbase confirmed at 5, tx 1 and its child 3 unconfirmed -/
def exCG : ChainGraph TxHeight DemoTx :=
  (ChainGraph.empty.run [.insertCheckpoint ⟨5, 15⟩ oId, .insertCheckpoint ⟨8, 18⟩ oId, .insertTx (d 0) (.confirmed 5) oId,
    .insertTx (d 1) .unconfirmed oId, .insertTx (d 3) .unconfirmed oId])

/-- updates in a history are themselves reachable -/
def OpOk : ChainGraph.Op P T → Prop
  | .applyUpdate u _ => Reachable u
  | _ => True

theorem step_reachable {cg : ChainGraph P T} (h : Reachable cg) (op : ChainGraph.Op P T) (hop : OpOk op) :
    Reachable (cg.step op).1 := by
  cases op with
  | insertTx t pos o => exact .insertTx t pos o h
  | insertTxout op x => exact .insertTxout op x h
  | insertCheckpoint b o => exact .insertCheckpoint b o h
  | invalidateCheckpoints n => exact .invalidateCheckpoints n h
  | applyUpdate u o => exact .applyUpdate o h hop

theorem run_reachable {cg : ChainGraph P T} (h : Reachable cg) (ops : List (ChainGraph.Op P T))
    (hop : ∀ op ∈ ops, OpOk op) : Reachable (cg.run ops) := by
  unfold ChainGraph.run
  induction ops generalizing cg with
  | nil => exact h
  | cons op ops ih =>
    exact ih (step_reachable h op (hop op (by simp))) (fun o ho => hop o (List.mem_cons_of_mem _ ho))

theorem exCG_reachable : Reachable exCG :=
  run_reachable .empty _ (by intro op hop; simp at hop; rcases hop with rfl | rfl | rfl | rfl | rfl <;> trivial)

theorem graph_reachable {cg : ChainGraph P T} (h : Reachable cg) : TxGraph.Reachable cg.graph := by
  have hok : ∀ {ε : Type} (cg : ChainGraph P T) (r : Res ε (CGChangeSet P T)), TxGraph.Reachable cg.graph →
      TxGraph.Reachable (cg.applyOk r).1.graph := by
    intro ε cg r h
    unfold applyOk
    cases r with
    | ok cs => exact .applyAdditions _ h
    | err e => exact h
    | panic => exact h
  induction h with
  | empty => exact .empty
  | new so hc hg hn =>
    obtain ⟨rfl, -⟩ := (new_ok_iff (sparse_reachable_consistent hc) (TxGraph.reachable_wf hg)).1 hn
    exact hg
  | insertTx t pos o _ ih => exact hok _ _ ih
  | insertTxout op x _ ih => exact .applyAdditions _ ih
  | insertCheckpoint b o _ ih => exact hok _ _ ih
  | invalidateCheckpoints h _ ih => exact .applyAdditions _ ih
  | setCheckpointLimit l _ ih => exact ih
  | applyUpdate o _ _ ih1 _ => exact hok _ _ ih1

/-! ## C24 -/

/-- **C24** `get_tx_in_chain` never panics: it answers for exactly the transactions of the chain, with their position
and the full transaction of that txid -/
theorem C24_get_tx_in_chain (cg : ChainGraph P T) (h : Reachable cg) (t : Txid) :
    (cg.chain.txPosition t = none → cg.getTxInChain t = some none) ∧
    (∀ p, cg.chain.txPosition t = some p → ∃ x, cg.getTxInChain t = some (some (p, x)) ∧
      cg.graph.getTx t = some x ∧ (asTx x).txid = t) := by
  have hi := reachable_inv h
  unfold getTxInChain
  constructor
  · intro hn; rw [hn]
  · intro p hp
    obtain ⟨x, hx⟩ := hi.full t (by unfold InChain; rw [hp]; simp)
    rw [hp, hx]
    exact ⟨x, rfl, rfl, hi.wf.keys _ _ hx⟩

/-- **C24** `transactions_in_chain` never panics -/
theorem C24_transactions_in_chain (cg : ChainGraph P T) (h : Reachable cg) : none ∉ cg.transactionsInChain := by
  have hi := reachable_inv h
  unfold transactionsInChain
  rw [List.mem_map]
  rintro ⟨e, he, hn⟩
  have hp := ((SparseChain.positionsAgree_of_consistent hi.cons).1 e.1 e.2).1 he
  obtain ⟨x, hx⟩ := hi.full e.2 (by unfold InChain; rw [hp]; simp)
  rw [hx] at hn; cases hn

/-- **C24** no public method panics: neither the `debug_assert!` in conflict resolution nor the `unreachable!`s of the
sparse chain are ever hit (`u32::MAX` not being used as a height) -/
theorem C24_no_panic (cg u : ChainGraph P T) (h : Reachable cg) (hu : Reachable u) (o : Orders P T) (t : T) (pos : P)
    (b : BlockId) :
    (cg.applyUpdate u o).2 ≠ .panic ∧
    (HeightsOk cg.chain → (cg.insertTx t pos o).2 ≠ .panic ∧ (cg.insertCheckpoint b o).2 ≠ .panic) := by
  have hi := reachable_inv h
  have hui := reachable_inv hu
  have key : ∀ {ε : Type} (r : Res ε (CGChangeSet P T)), r ≠ .panic → (cg.applyOk r).2 ≠ .panic := by
    intro ε r hr; unfold applyOk; cases r <;> simp_all
  refine ⟨key _ ?_, fun hok => ⟨key _ ?_, key _ ?_⟩⟩
  · unfold determineChangeset
    cases hcs : cg.chain.determineChangeset u.chain o.chain with
    | error e => simp
    | ok cs =>
      simp only []
      obtain ⟨h1, h2⟩ := update_conditions hi hui hcs
      have := (fix_spec hi ⟨cs, cg.graph.determineAdditions u.graph o.graph⟩ o.spend h1
        (fun t a b => by obtain ⟨_, _, _, y, hy, _⟩ := h2 t a b; exact ⟨y, hy⟩)).1
      cases hf : cg.fixConflicts ⟨cs, cg.graph.determineAdditions u.graph o.graph⟩ o.spend <;> simp_all
  · unfold insertTxPreview
    have hp := C12_insert_tx_no_panic cg.chain hok (SparseChain.positionsAgree_of_consistent hi.cons) (asTx t).txid pos o.chain
    unfold SparseChain.insertTx SparseChain.applyOk at hp
    cases hcs : cg.chain.insertTxPreview (asTx t).txid pos o.chain with
    | panic => rw [hcs] at hp; simp at hp
    | err e => simp
    | ok cs =>
      simp only []
      obtain ⟨h1, h2⟩ := insertTx_conditions hi hcs
      have := (fix_spec hi ⟨cs, cg.graph.insertTxPreview t⟩ o.spend h1 (fun k a b => (h2 k a b).2)).1
      cases hf : cg.fixConflicts ⟨cs, cg.graph.insertTxPreview t⟩ o.spend <;> simp_all
  · unfold insertCheckpointPreview
    have hp := (C13_insert_checkpoint_outcome cg.chain hok (SparseChain.positionsAgree_of_consistent hi.cons) b o.chain).1
    unfold SparseChain.insertCheckpoint SparseChain.applyOk at hp
    cases hcs : cg.chain.insertCheckpointPreview b o.chain with
    | panic => rw [hcs] at hp; simp at hp
    | err e => simp
    | ok cs => simp

example : exCG.getTxInChain (dId 3) = some (some (.unconfirmed, d 3)) ∧ exCG.getTxInChain (dId 2) = some none ∧
    exCG.transactionsInChain.length = 3 := by decide

/-! ## C25 -/

/-- **C25** no two different transactions of the chain spend the same output -/
theorem C25_no_double_spend (cg : ChainGraph P T) (h : Reachable cg) (a b : Txid) (pa pb : P) (x y : T) (o : OutPoint)
    (ha : cg.getTxInChain a = some (some (pa, x))) (hb : cg.getTxInChain b = some (some (pb, y)))
    (hx : o ∈ (asTx x).input) (hy : o ∈ (asTx y).input) (hn : o.isNull = false) : a = b := by
  have hi := reachable_inv h
  have key : ∀ t p z, cg.getTxInChain t = some (some (p, z)) → InChain cg.chain t ∧ cg.graph.getTx t = some z := by
    intro t p z ht
    unfold getTxInChain at ht
    cases hp : cg.chain.txPosition t with
    | none => rw [hp] at ht; simp at ht
    | some p' =>
      rw [hp] at ht
      simp only [] at ht
      cases hz : cg.graph.getTx t with
      | none => rw [hz] at ht; simp at ht
      | some z' =>
        rw [hz] at ht
        simp only [Option.some.injEq, Prod.mk.injEq] at ht
        exact ⟨by unfold InChain; rw [hp]; simp, by rw [ht.2]⟩
  obtain ⟨ha1, ha2⟩ := key _ _ _ ha
  obtain ⟨hb1, hb2⟩ := key _ _ _ hb
  exact hi.nods a b x y o ha1 hb1 ha2 hb2 hx hy hn

/-- The documentation (chain_graph.rs:20-22) also promises that transactions of the chain do not "have ancestors that
double spend each other".  The code does not ensure that: 1 is evicted by the confirmed 2, and afterwards 3, which spends
1, is accepted. -/
theorem C25_doc_conflicting_ancestors : ∃ cg : ChainGraph TxHeight DemoTx, Reachable cg ∧
    (∃ p, cg.getTxInChain (dId 2) = some (some (p, d 2))) ∧ (∃ p, cg.getTxInChain (dId 3) = some (some (p, d 3))) ∧
    cg.graph.getTx (dId 1) = some (d 1) ∧ (∃ v, ⟨dId 1, v⟩ ∈ (demoTx 3).input) ∧
    (∃ o, o ∈ (demoTx 1).input ∧ o ∈ (demoTx 2).input) ∧ cg.getTxInChain (dId 1) = some none := by
  refine ⟨(ChainGraph.empty : ChainGraph TxHeight DemoTx).run [.insertCheckpoint ⟨8, 18⟩ oId,
    .insertTx (d 1) .unconfirmed oId, .insertTx (d 2) (.confirmed 7) oId, .insertTx (d 3) .unconfirmed oId],
    run_reachable .empty _ ?_, ⟨.confirmed 7, by decide⟩, ⟨.unconfirmed, by decide⟩, by decide, ⟨1, by decide⟩,
    ⟨⟨dId 0, 0⟩, by decide⟩, by decide⟩
  intro op hop; simp at hop; rcases hop with rfl | rfl | rfl | rfl <;> trivial

/-! ## C26 -/

/-- **C26** what `apply_update` does about conflicts.  `plain` is what the update does to the chain alone, `g'` to the
graph alone.  If the chain refuses, so does the call.  Otherwise it succeeds iff everything that a newly added
transaction displaces is unconfirmed after the update; then exactly the displaced transactions are evicted and all else
is as in `plain`.  When it fails, it names a displaced confirmed transaction and the new one, and changes nothing. -/
theorem C26_update (cg u : ChainGraph P T) (h : Reachable cg) (hu : Reachable u) (o : Orders P T) :
    let plain := cg.chain.applyUpdate u.chain o.chain
    let g' := (cg.graph.applyUpdate u.graph o.graph).1
    let D := Displaces cg.chain plain.1 cg.graph g'
    let r := cg.applyUpdate u o
    (∀ e, plain.2 = .error e → r = (cg, .err (.chain e))) ∧
    (∀ cs, plain.2 = .ok cs →
      ((∃ cs', r.2 = .ok cs') ↔ ∀ t c, D t c → IsUnconfirmed plain.1 c) ∧
      (∀ cs', r.2 = .ok cs' → r.1.graph = g' ∧ (∀ k, r.1.chain.checkpointAt k = plain.1.checkpointAt k) ∧
        (∀ c, (∃ t, D t c) → r.1.chain.txPosition c = none) ∧
        (∀ c, (¬ ∃ t, D t c) → r.1.chain.txPosition c = plain.1.txPosition c)) ∧
      (¬ (∃ cs', r.2 = .ok cs') → ∃ e, r = (cg, .err (.unresolvableConflict e)) ∧
        D e.updateTx.2 e.alreadyConfirmedTx.2 ∧ IsConfirmed plain.1 e.alreadyConfirmedTx.2 ∧
        cg.chain.txPosition e.alreadyConfirmedTx.2 = some e.alreadyConfirmedTx.1 ∧
        u.chain.txPosition e.updateTx.2 = some e.updateTx.1)) := by
  intro plain g' D r
  have hi := reachable_inv h
  have hui := reachable_inv hu
  have hpl : plain = cg.chain.applyUpdate u.chain o.chain := rfl
  unfold SparseChain.applyUpdate at hpl
  have hr : r = cg.applyOk (cg.determineChangeset u o) := rfl
  unfold determineChangeset at hr
  cases hcs : cg.chain.determineChangeset u.chain o.chain with
  | error e =>
    rw [hcs] at hpl hr
    simp only [] at hpl hr
    rw [hpl]
    refine ⟨?_, by simp⟩
    intro e' he'
    cases he'
    rw [hr]; rfl
  | ok cs =>
    rw [hcs] at hpl hr
    simp only [] at hpl hr
    obtain ⟨h1, h2⟩ := update_conditions hi hui hcs
    obtain ⟨f1, f2, f3⟩ := fix_spec hi ⟨cs, cg.graph.determineAdditions u.graph o.graph⟩ o.spend h1
        (fun t a b => by obtain ⟨_, _, _, y, hy, _⟩ := h2 t a b; exact ⟨y, hy⟩)
    have hp1 : plain.1 = cg.chain.applyChangeset cs := by rw [hpl]
    have hD : D = Displaces cg.chain (cg.chain.applyChangeset cs) cg.graph
        (cg.graph.applyAdditions (cg.graph.determineAdditions u.graph o.graph)) := by
      show Displaces cg.chain plain.1 cg.graph g' = _
      rw [hp1]; rfl
    refine ⟨by rw [hpl]; simp, ?_⟩
    intro cs0 _
    rw [hD, hp1]
    cases hf : cg.fixConflicts ⟨cs, cg.graph.determineAdditions u.graph o.graph⟩ o.spend with
    | panic => exact absurd hf f1
    | err e =>
      rw [hf] at hr
      obtain ⟨a1, a2, a3, a4⟩ := f3 e hf
      have hr2 : r = (cg, .err (.unresolvableConflict e)) := by rw [hr]; rfl
      refine ⟨?_, ?_, ?_⟩
      · rw [hr2]
        simp only [reduceCtorEq, exists_false, false_iff, not_forall]
        refine ⟨_, _, a1, ?_⟩
        rintro ⟨p, hp, hh⟩
        obtain ⟨q, k, hq, hh'⟩ := a4
        simp only [hp, Option.some.injEq] at hq
        subst hq; rw [hh] at hh'; cases hh'
      · rw [hr2]; simp
      · intro _
        refine ⟨e, hr2, a1, a4, a2, ?_⟩
        obtain ⟨b1, -⟩ := h2 e.updateTx.2 a1.1 (by unfold InChain; rw [a3]; simp)
        obtain ⟨q, hq⟩ := Option.ne_none_iff_exists'.1 (show u.chain.txPosition e.updateTx.2 ≠ none from b1)
        have := (SparseChain.determine_pos hi.cons hcs e.updateTx.2).1 q hq
        rw [hq, ← this]; exact a3
    | ok rr =>
      rw [hf] at hr
      obtain ⟨a1, a2, a3, a4, a5⟩ := f2 rr hf
      have hr2 : r = (cg.applyChangeset rr, .ok rr) := by rw [hr]; rfl
      refine ⟨?_, ?_, ?_⟩
      · rw [hr2]
        exact ⟨fun _ => a1, fun _ => ⟨rr, rfl⟩⟩
      · intro cs' _
        rw [hr2]
        refine ⟨?_, ?_, a4, a5⟩
        · show cg.graph.applyAdditions rr.graph = _
          rw [a2]; rfl
        · intro k
          show (cg.chain.applyChangeset rr.chain).checkpointAt k = _
          unfold SparseChain.checkpointAt
          congr 1
          have : (cg.chain.applyChangeset rr.chain).checkpoints = (cg.chain.applyChangeset cs).checkpoints := by
            unfold SparseChain.applyChangeset SparseChain.pruneCheckpoints
            rw [a3]
            cases cg.chain.checkpointLimit with
            | none => rfl
            | some n =>
              simp only []
              cases (List.foldl SparseChain.applyCheckpoint cg.chain.checkpoints cs.checkpoints.entries).keys.reverse[n]? <;> rfl
          rw [this]
      · intro hno
        exact absurd ⟨rr, by rw [hr2]⟩ hno

/-- **C26** the same for `insert_tx`: it succeeds iff the chain accepts the position and, if the transaction is new, all
conflicting transactions are unconfirmed; they are evicted and nothing else changes -/
theorem C26_insert_tx (cg : ChainGraph P T) (h : Reachable cg) (t : T) (pos : P) (o : Orders P T) :
    let k := (asTx t).txid
    let plain := cg.chain.insertTx k pos o.chain
    let r := cg.insertTx t pos o
    let X := fun c => ¬ InChain cg.chain k ∧ ChainConflict cg.chain cg.graph (asTx t) c
    (∀ e, plain.2 = .err e → r = (cg, .err (.chain e))) ∧
    (∀ cs, plain.2 = .ok cs →
      ((∃ cs', r.2 = .ok cs') ↔ ∀ c, X c → IsUnconfirmed plain.1 c) ∧
      (∀ cs', r.2 = .ok cs' → r.1.graph = (cg.graph.insertTx t).1 ∧ (∀ k, r.1.chain.checkpointAt k = plain.1.checkpointAt k) ∧
        (∀ c, X c → r.1.chain.txPosition c = none) ∧ (∀ c, ¬ X c → r.1.chain.txPosition c = plain.1.txPosition c)) ∧
      (¬ (∃ cs', r.2 = .ok cs') → ∃ e, r = (cg, .err (.unresolvableConflict e)) ∧ e.updateTx.2 = k ∧
        X e.alreadyConfirmedTx.2 ∧ IsConfirmed plain.1 e.alreadyConfirmedTx.2)) := by
  intro k plain r X
  have hi := reachable_inv h
  have hpl : plain = cg.chain.applyOk (cg.chain.insertTxPreview k pos o.chain) := rfl
  have hr : r = cg.applyOk (cg.insertTxPreview t pos o) := rfl
  unfold insertTxPreview at hr
  cases hcs : cg.chain.insertTxPreview k pos o.chain with
  | panic => rw [hcs] at hpl; rw [hpl]; simp [SparseChain.applyOk]
  | err e =>
    rw [show cg.chain.insertTxPreview (asTx t).txid pos o.chain = _ from hcs] at hr
    rw [hcs] at hpl
    rw [hpl]
    refine ⟨?_, by simp [SparseChain.applyOk]⟩
    intro e' he'
    simp only [SparseChain.applyOk, Res.err.injEq] at he'
    subst he'
    rw [hr]; rfl
  | ok cs =>
    rw [show cg.chain.insertTxPreview (asTx t).txid pos o.chain = _ from hcs] at hr
    rw [hcs] at hpl
    obtain ⟨h1, h2⟩ := insertTx_conditions hi hcs
    obtain ⟨f1, f2, f3⟩ := fix_spec hi ⟨cs, cg.graph.insertTxPreview t⟩ o.spend h1 (fun k a b => (h2 k a b).2)
    have hp1 : plain.1 = cg.chain.applyChangeset cs := by rw [hpl]; rfl
    have hkin : (cg.chain.applyChangeset cs).txPosition k = some pos := by
      obtain ⟨hd, -⟩ := SparseChain.insertTxPreview_ok hcs
      exact (SparseChain.determine_pos hi.cons hd k).1 pos (OMap.get_insert_self _ _ _)
    have hgk : ∀ y, (cg.graph.applyAdditions (cg.graph.insertTxPreview t)).getTx k = some y → asTx y = asTx t := by
      intro y hy
      exact LawfulTx.txid_inj _ _ ((TxGraph.applyAdditions_wf hi.wf _).keys _ _ hy)
    have hex : ∃ y, (cg.graph.applyAdditions (cg.graph.insertTxPreview t)).getTx k = some y := by
      have hget := TxGraph.insertTx_getTx cg.graph t k
      unfold TxGraph.insertTx at hget
      simp only [] at hget
      rw [hget]
      cases cg.graph.getTx k <;> simp [k]
    have hXD : ∀ c, X c ↔ ∃ t', Displaces cg.chain (cg.chain.applyChangeset cs) cg.graph
        (cg.graph.applyAdditions (cg.graph.insertTxPreview t)) t' c := by
      intro c
      constructor
      · rintro ⟨a, b⟩
        obtain ⟨y, hy⟩ := hex
        exact ⟨k, a, by unfold InChain; rw [hkin]; simp, y, hy, by rw [hgk y hy]; exact b⟩
      · rintro ⟨t', a, b, y, hy, hc⟩
        have := (h2 t' a b).1
        subst this
        exact ⟨a, by rw [← hgk y hy]; exact hc⟩
    refine ⟨by rw [hpl]; simp [SparseChain.applyOk], ?_⟩
    intro cs0 _
    rw [hp1]
    simp only [] at hr
    cases hf : cg.fixConflicts ⟨cs, cg.graph.insertTxPreview t⟩ o.spend with
    | panic => exact absurd hf f1
    | err e =>
      rw [hf] at hr
      obtain ⟨a1, a2, a3, a4⟩ := f3 e hf
      have hr2 : r = (cg, .err (.unresolvableConflict e)) := by rw [hr]; rfl
      refine ⟨?_, ?_, ?_⟩
      · rw [hr2]
        simp only [reduceCtorEq, exists_false, false_iff, not_forall]
        refine ⟨_, (hXD _).2 ⟨_, a1⟩, ?_⟩
        rintro ⟨p, hp, hh⟩
        obtain ⟨q, n, hq, hh'⟩ := a4
        simp only [hp, Option.some.injEq] at hq
        subst hq; rw [hh] at hh'; cases hh'
      · rw [hr2]; simp
      · intro _
        exact ⟨e, hr2, (h2 e.updateTx.2 a1.1 a1.2.1).1, (hXD _).2 ⟨_, a1⟩, a4⟩
    | ok rr =>
      rw [hf] at hr
      obtain ⟨a1, a2, a3, a4, a5⟩ := f2 rr hf
      have hr2 : r = (cg.applyChangeset rr, .ok rr) := by rw [hr]; rfl
      refine ⟨?_, ?_, ?_⟩
      · rw [hr2]
        exact ⟨fun _ c hc => by obtain ⟨t', ht'⟩ := (hXD c).1 hc; exact a1 t' c ht', fun _ => ⟨rr, rfl⟩⟩
      · intro cs' _
        rw [hr2]
        refine ⟨?_, ?_, fun c hc => a4 c ((hXD c).1 hc), fun c hc => a5 c (fun hd => hc ((hXD c).2 hd))⟩
        · show cg.graph.applyAdditions rr.graph = _
          rw [a2]; rfl
        · intro k
          show (cg.chain.applyChangeset rr.chain).checkpointAt k = _
          unfold SparseChain.checkpointAt
          congr 1
          have : (cg.chain.applyChangeset rr.chain).checkpoints = (cg.chain.applyChangeset cs).checkpoints := by
            unfold SparseChain.applyChangeset SparseChain.pruneCheckpoints
            rw [a3]
            cases cg.chain.checkpointLimit with
            | none => rfl
            | some n =>
              simp only []
              cases (List.foldl SparseChain.applyCheckpoint cg.chain.checkpoints cs.checkpoints.entries).keys.reverse[n]? <;> rfl
          rw [this]
      · intro hno
        exact absurd ⟨rr, by rw [hr2]⟩ hno

/-- **C26** evictions leave no orphans behind: when a successful update evicts a transaction, it evicts every transaction of
the old chain that spends it -/
theorem C26_no_orphans (cg u : ChainGraph P T) (h : Reachable cg) (hu : Reachable u) (o : Orders P T) (cs : CGChangeSet P T)
    (hok : (cg.applyUpdate u o).2 = .ok cs) (c e : Txid) (hc : InChain cg.chain c)
    (hgone : ¬ InChain (cg.applyUpdate u o).1.chain c) (he : InChain cg.chain e) (hspend : ChildOf cg.graph c e) :
    ¬ InChain (cg.applyUpdate u o).1.chain e := by
  obtain ⟨h1, h2⟩ := C26_update cg u h hu o
  cases hp : (cg.chain.applyUpdate u.chain o.chain).2 with
  | error e' => rw [h1 e' hp] at hok; cases hok
  | ok cs0 =>
    obtain ⟨-, h4, -⟩ := h2 cs0 hp
    obtain ⟨-, -, h5, h6⟩ := h4 cs hok
    have hd : ∃ t, Displaces cg.chain (cg.chain.applyUpdate u.chain o.chain).1 cg.graph
        (cg.graph.applyUpdate u.graph o.graph).1 t c := by
      by_contra hnd
      apply hgone
      unfold InChain
      rw [h6 c hnd]
      have hdet : cg.chain.determineChangeset u.chain o.chain = .ok cs0 := by
        unfold SparseChain.applyUpdate at hp
        cases hd : cg.chain.determineChangeset u.chain o.chain with
        | error e' => rw [hd] at hp; cases hp
        | ok c' => rw [hd] at hp; exact hp
      have hst : (cg.chain.applyUpdate u.chain o.chain).1 = cg.chain.applyChangeset cs0 := by
        unfold SparseChain.applyUpdate; rw [hdet]
      rw [hst]
      exact (SparseChain.determine_pos (reachable_inv h).cons hdet c).2.2.1 hc
    obtain ⟨t, g1, g2, x, g3, g4, g5⟩ := hd
    have : (cg.applyUpdate u o).1.chain.txPosition e = none :=
      h5 e ⟨t, g1, g2, x, g3, he, .step g5 hc hspend⟩
    exact fun hin => hin this

/-- an update in which 2, which conflicts with 1, is confirmed -/
def exConflict : ChainGraph TxHeight DemoTx :=
  ChainGraph.empty.run [.insertCheckpoint ⟨8, 18⟩ oId, .insertTx (d 2) (.confirmed 7) oId]

theorem exConflict_reachable : Reachable exConflict :=
  run_reachable .empty _ (by intro op hop; simp at hop; rcases hop with rfl | rfl <;> trivial)

/-- 1 and its child 3 are evicted -/
example : Reachable exCG ∧ Reachable exConflict ∧ (exCG.applyUpdate exConflict oId).1.chain.txids =
    [(.confirmed 5, dId 0), (.confirmed 7, dId 2)] ∧ ∃ cs, (exCG.applyUpdate exConflict oId).2 = .ok cs :=
  ⟨exCG_reachable, exConflict_reachable, by decide, _, rfl⟩
/-- the other way round the update is refused -/
example : (exConflict.insertTx (d 1) .unconfirmed oId).2 =
    .err (.unresolvableConflict ⟨(.confirmed 7, dId 2), (.unconfirmed, dId 1)⟩) := by decide

/-! ## C27 -/

/-- **C27** `spent_by` answers iff a transaction of the chain spends the output; there is then only one, whatever the
`HashSet` order -/
theorem C27_spent_by_exact (cg : ChainGraph P T) (h : Reachable cg) (so : SpendOrder) (o : OutPoint) (p : P) (t : Txid) :
    cg.spentBy so o = some (p, t) ↔
      cg.chain.txPosition t = some p ∧ ∃ x, cg.graph.getTx t = some x ∧ o ∈ (asTx x).input ∧ o.isNull = false := by
  have hi := reachable_inv h
  unfold ChainGraph.spentBy SparseChain.spentBy
  have hmem : ∀ t, t ∈ (so o).perm (cg.graph.outspends o).toList ↔ SpentByInGraph cg.graph o t := by
    intro t
    rw [HashOrder.mem, OSet.mem_toList, hi.wf.spends.1]
  constructor
  · intro hf
    obtain ⟨t', ht', hp⟩ := List.exists_of_findSome?_eq_some hf
    rw [Option.map_eq_some_iff] at hp
    obtain ⟨p', hp', heq⟩ := hp
    cases heq
    exact ⟨hp', (hmem t).1 ht'⟩
  · rintro ⟨hp, hx⟩
    cases hf : ((so o).perm (cg.graph.outspends o).toList).findSome? (fun t => (cg.chain.txPosition t).map (fun p => (p, t))) with
    | none =>
      rw [List.findSome?_eq_none_iff] at hf
      have := hf t ((hmem t).2 hx)
      rw [hp] at this; cases this
    | some q =>
      obtain ⟨t', ht', hq⟩ := List.exists_of_findSome?_eq_some hf
      rw [Option.map_eq_some_iff] at hq
      obtain ⟨p', hp', rfl⟩ := hq
      obtain ⟨x, h1, h2, h3⟩ := hx
      obtain ⟨y, h4, h5, -⟩ := (hmem t').1 ht'
      have := hi.nods t t' x y o (by unfold InChain; rw [hp]; simp) (by unfold InChain; rw [hp']; simp) h1 h4 h2 h5 h3
      subst this
      rw [hp] at hp'; cases hp'; rfl

/-- **C27** … so the answer does not depend on the `HashSet` order -/
theorem C27_spent_by_order_irrelevant (cg : ChainGraph P T) (h : Reachable cg) (so so' : SpendOrder) (o : OutPoint) :
    cg.spentBy so o = cg.spentBy so' o := by
  apply Option.ext
  rintro ⟨p, t⟩
  rw [C27_spent_by_exact cg h, C27_spent_by_exact cg h]

/-- **C27** `full_txout` is `Some` iff the transaction is in the chain and has that output, and every field is right -/
theorem C27_full_txout_exact (cg : ChainGraph P T) (h : Reachable cg) (so : SpendOrder) (o : OutPoint) (f : FullTxOut P) :
    cg.fullTxout so o = some f ↔ ∃ x, cg.getTxInChain o.txid = some (some (f.chainPosition, x)) ∧
      (asTx x).output[o.vout.val]? = some f.txout ∧ f.outpoint = o ∧ f.isOnCoinbase = (asTx x).isCoinBase ∧
      (∀ p t, f.spentBy = some (p, t) ↔
        cg.chain.txPosition t = some p ∧ ∃ y, cg.graph.getTx t = some y ∧ o ∈ (asTx y).input ∧ o.isNull = false) := by
  have hsp : ∀ s : Option (P × Txid), (∀ p t, s = some (p, t) ↔
        cg.chain.txPosition t = some p ∧ ∃ y, cg.graph.getTx t = some y ∧ o ∈ (asTx y).input ∧ o.isNull = false) ↔
      s = cg.chain.spentBy cg.graph so o := by
    intro s
    constructor
    · intro hs
      apply Option.ext
      rintro ⟨p, t⟩
      rw [hs, ← C27_spent_by_exact cg h so]; rfl
    · rintro rfl p t
      exact C27_spent_by_exact cg h so o p t
  unfold ChainGraph.fullTxout SparseChain.fullTxout getTxInChain
  simp only [hsp]
  cases hp : cg.chain.txPosition o.txid with
  | none => simp
  | some p =>
    cases hx : cg.graph.getTx o.txid with
    | none => simp
    | some x =>
      cases hout : (asTx x).output[o.vout.val]? with
      | none =>
        simp only [Option.bind_eq_bind, Option.bind_some, hout, Option.bind_none, reduceCtorEq, Option.some.injEq,
          Prod.mk.injEq, false_iff, not_exists, not_and]
        rintro y ⟨_, rfl⟩ h2
        rw [hout] at h2; cases h2
      | some out =>
        simp only [Option.bind_eq_bind, Option.bind_some, hout, Option.some.injEq, Prod.mk.injEq]
        constructor
        · rintro rfl
          exact ⟨x, ⟨rfl, rfl⟩, hout, rfl, rfl, rfl⟩
        · rintro ⟨y, ⟨h1, rfl⟩, h2, h3, h4, h5⟩
          rw [hout, Option.some.injEq] at h2
          cases f
          simp_all

example : exCG.spentBy (fun _ => HashOrder.id _) ⟨dId 1, 1⟩ = some (.unconfirmed, dId 3) ∧
    exCG.fullTxout (fun _ => HashOrder.rev _) ⟨dId 0, 0⟩ =
      some ⟨⟨dId 0, 0⟩, ⟨50, 1⟩, .confirmed 5, some (.unconfirmed, dId 1), true⟩ ∧
    exCG.fullTxout (fun _ => HashOrder.rev _) ⟨dId 2, 0⟩ = none := by decide

/-! ## C28 -/

/-- **C28** `new` succeeds iff every transaction of the chain is in the graph in full and no two of them spend the same
output; it then holds exactly the given chain and graph -/
theorem C28_new_ok_iff (c : SparseChain P) (g : TxGraph T) (hc : c.Reachable) (hg : g.Reachable) (so : SpendOrder)
    (cg : ChainGraph P T) : ChainGraph.new c g so = .ok cg ↔ cg = ⟨c, g⟩ ∧ AllFull c g ∧ NoDoubleSpend c g :=
  new_ok_iff (sparse_reachable_consistent hc) (TxGraph.reachable_wf hg)

/-- **C28** a `Missing` error lists exactly the chain txids without full transaction, and is reported only if there is no
conflict; a `Conflict` error names two transactions of the chain with their positions that really conflict -/
theorem C28_new_error (c : SparseChain P) (g : TxGraph T) (hc : c.Reachable) (hg : g.Reachable) (so : SpendOrder) :
    (∀ m, ChainGraph.new c g so = .error (.missing m) →
      NoDoubleSpend c g ∧ ∀ t, m.mem t = true ↔ InChain c t ∧ g.getTx t = none) ∧
    (∀ a b, ChainGraph.new c g so = .error (.conflict a b) → ¬ NoDoubleSpend c g ∧
      c.txPosition a.2 = some a.1 ∧ c.txPosition b.2 = some b.1 ∧
      ∃ x, g.getTx a.2 = some x ∧ ChainConflict c g (asTx x) b.2) := by
  have hcc := sparse_reachable_consistent hc
  have hw := TxGraph.reachable_wf hg
  have hp := SparseChain.positionsAgree_of_consistent hcc
  unfold ChainGraph.new
  cases hm : newLoop c g so c.txids OMap.empty with
  | error e =>
    obtain ⟨a, b, x, rfl, h2, h3, h4⟩ := newLoop_error hm
    refine ⟨by simp, ?_⟩
    intro a' b' he
    cases he
    refine ⟨?_, (hp.1 a.1 a.2).1 h2, ((mem_conflictsIn hw.spends).1 h4).1, x, h3, ((mem_conflictsIn hw.spends).1 h4).2⟩
    intro hn
    have := (newLoop_conflict_free hcc hw (so := so)).2 hn a h2 x h3
    rw [List.head?_eq_none_iff] at this
    rw [this] at h4; cases h4
  | ok m =>
    obtain ⟨h1, h2⟩ := newLoop_ok hm
    simp only []
    refine ⟨?_, ?_⟩
    · intro m' he
      split at he
      · cases he
      · cases he
        refine ⟨(newLoop_conflict_free hcc hw (so := so)).1 h1, ?_⟩
        intro t
        rw [h2 t]
        simp only [OSet.mem_empty, Bool.false_eq_true, false_or]
        constructor
        · rintro ⟨⟨p, hpt⟩, hn⟩
          exact ⟨by unfold InChain; rw [(hp.1 p t).1 hpt]; simp, hn⟩
        · rintro ⟨hin, hn⟩
          obtain ⟨p, hpt⟩ := Option.ne_none_iff_exists'.1 (show c.txPosition t ≠ none from hin)
          exact ⟨⟨p, (hp.1 p t).2 hpt⟩, hn⟩
    · intro a b he
      split at he <;> cases he

theorem foldl_insertTx_getTx (l : List T) (g : TxGraph T) (k : Txid) :
    (l.foldl (fun g t => (g.insertTx t).1) g).getTx k = (g.getTx k).or (l.find? (fun t => decide ((asTx t).txid = k))) := by
  induction l generalizing g with
  | nil => simp
  | cons t l ih =>
    rw [List.foldl_cons, ih, TxGraph.insertTx_getTx, List.find?_cons]
    by_cases hk : k = (asTx t).txid
    · subst hk
      cases g.getTx (asTx t).txid <;> simp
    · have : decide ((asTx t).txid = k) = false := by simp [Ne.symm hk]
      simp only [this, if_neg hk]
      cases g.getTx k <;> simp

theorem foldl_insertTx_reachable (l : List T) (g : TxGraph T) (h : TxGraph.Reachable g) :
    TxGraph.Reachable (l.foldl (fun g t => (g.insertTx t).1) g) := by
  induction l generalizing g with
  | nil => exact h
  | cons t l ih => exact ih _ (.insertTx t h)

/-- **C28** the transactions `inflate_update` works with: for each txid of the update the one already in the graph, else
the first of `new_txs` with that txid -/
theorem C28_inflated_content (cg : ChainGraph P T) (h : Reachable cg) (update : SparseChain P) (hu : update.Reachable)
    (newTxs : List T) (k : Txid) (hk : InChain update k) :
    (cg.inflatedGraph update newTxs).getTx k =
      (cg.graph.getTx k).or (newTxs.find? (fun t => decide ((asTx t).txid = k))) := by
  have hi := reachable_inv h
  have hp := SparseChain.positionsAgree_of_consistent (sparse_reachable_consistent hu)
  unfold inflatedGraph
  rw [foldl_insertTx_getTx, foldl_insertTx_getTx]
  congr 1
  have he : (TxGraph.empty : TxGraph T).getTx k = none := rfl
  rw [he, Option.none_or]
  cases hg : cg.graph.getTx k with
  | some x =>
    obtain ⟨p, hpk⟩ := Option.ne_none_iff_exists'.1 (show update.txPosition k ≠ none from hk)
    cases hf : (update.txids.filterMap (fun e => cg.graph.getTx e.2)).find? (fun t => decide ((asTx t).txid = k)) with
    | none =>
      rw [List.find?_eq_none] at hf
      have := hf x (List.mem_filterMap.2 ⟨(p, k), (hp.1 p k).2 hpk, hg⟩)
      simp [hi.wf.keys _ _ hg] at this
    | some y =>
      have h1 := List.find?_some hf
      have h2 := List.mem_of_find?_eq_some hf
      simp only [decide_eq_true_eq] at h1
      obtain ⟨e, -, h3⟩ := List.mem_filterMap.1 h2
      have := hi.wf.keys _ _ h3
      rw [h1] at this
      rw [← this, hg] at h3
      exact h3.symm
  | none =>
    rw [List.find?_eq_none]
    intro x hx
    obtain ⟨e, -, h3⟩ := List.mem_filterMap.1 hx
    simp only [decide_eq_true_eq]
    intro hxk
    have := hi.wf.keys _ _ h3
    rw [hxk] at this
    rw [← this, hg] at h3; cases h3

/-- **C28** `inflate_update` succeeds iff each txid of the update is in the existing graph or among `new_txs`, and no two
transactions of the update spend the same output; the result is a reachable chain graph of that chain -/
theorem C28_inflate_ok_iff (cg : ChainGraph P T) (h : Reachable cg) (update : SparseChain P) (hu : update.Reachable)
    (newTxs : List T) (so : SpendOrder) :
    ((∃ r, cg.inflateUpdate update newTxs so = .ok r) ↔
      (∀ k, InChain update k → cg.graph.getTx k ≠ none ∨ ∃ t ∈ newTxs, (asTx t).txid = k) ∧
      NoDoubleSpend update (cg.inflatedGraph update newTxs)) ∧
    (∀ r, cg.inflateUpdate update newTxs so = .ok r → Reachable r ∧ r.chain = update) := by
  have hgr : TxGraph.Reachable (cg.inflatedGraph update newTxs) :=
    foldl_insertTx_reachable _ _ (foldl_insertTx_reachable _ _ .empty)
  have hfull : AllFull update (cg.inflatedGraph update newTxs) ↔
      ∀ k, InChain update k → cg.graph.getTx k ≠ none ∨ ∃ t ∈ newTxs, (asTx t).txid = k := by
    unfold AllFull
    apply forall_congr'; intro k
    apply imp_congr_right; intro hk
    rw [C28_inflated_content cg h update hu newTxs k hk]
    cases hg : cg.graph.getTx k with
    | some x => simp
    | none =>
      rw [Option.none_or]
      constructor
      · rintro ⟨x, hx⟩
        exact Or.inr ⟨x, List.mem_of_find?_eq_some hx, by simpa using List.find?_some hx⟩
      · rintro (h | ⟨t, ht, hk⟩)
        · exact absurd rfl h
        · cases hf : newTxs.find? (fun t => decide ((asTx t).txid = k)) with
          | some y => exact ⟨y, rfl⟩
          | none => rw [List.find?_eq_none] at hf; simpa [hk] using hf t ht
  unfold inflateUpdate
  constructor
  · rw [← hfull]
    simp only [C28_new_ok_iff update _ hu hgr so]
    constructor
    · rintro ⟨r, _, h1⟩; exact h1
    · intro h1; exact ⟨_, rfl, h1⟩
  · intro r hr
    refine ⟨.new so hu hgr hr, ?_⟩
    rw [((C28_new_ok_iff update _ hu hgr so r).1 hr).1]

/-- **C28** a transaction reported missing is neither in the existing graph nor among `new_txs` -/
theorem C28_inflate_missing (cg : ChainGraph P T) (h : Reachable cg) (update : SparseChain P) (hu : update.Reachable)
    (newTxs : List T) (so : SpendOrder) (m : OSet Txid) (he : cg.inflateUpdate update newTxs so = .error (.missing m)) (t : Txid) :
    m.mem t = true ↔ InChain update t ∧ cg.graph.getTx t = none ∧ ∀ x ∈ newTxs, (asTx x).txid ≠ t := by
  have hgr : TxGraph.Reachable (cg.inflatedGraph update newTxs) :=
    foldl_insertTx_reachable _ _ (foldl_insertTx_reachable _ _ .empty)
  rw [((C28_new_error update _ hu hgr so).1 m he).2 t]
  apply and_congr_right
  intro hin
  rw [C28_inflated_content cg h update hu newTxs t hin, Option.or_eq_none_iff, List.find?_eq_none]
  simp

/-- chain of an update with txs 0 and 2 -/
def exUpdChain : SparseChain TxHeight :=
  (SparseChain.fromCheckpoints [⟨8, 18⟩]).run [.insertTx (dId 0) (.confirmed 5) (HashOrder.id _),
    .insertTx (dId 2) (.confirmed 7) (HashOrder.id _)]

example : exUpdChain.Reachable ∧ (∃ r, exCG.inflateUpdate exUpdChain [d 2] (fun _ => HashOrder.id _) = .ok r) ∧
    exCG.inflateUpdate exUpdChain [d 4] (fun _ => HashOrder.id _) = .error (.missing (OSet.add OMap.empty (dId 2))) :=
  ⟨⟨_, _, rfl⟩, ⟨_, rfl⟩, by decide⟩
example : ChainGraph.new (exUpdChain.run [.insertTx (dId 1) .unconfirmed (HashOrder.id _)])
      (TxGraph.new [d 0, d 1, d 2]) (fun _ => HashOrder.id _) =
    .error (.conflict (.confirmed 7, dId 2) (.unconfirmed, dId 1)) := by decide

/-! ## C29 -/

/-- **C29** `append` composes (without checkpoint limit, and without two witness versions of one transaction) -/
theorem C29_append_is_sequential (cg : ChainGraph P T) (h : Reachable cg) (hl : cg.chain.checkpointLimit = none)
    (a b : CGChangeSet P T)
    (hv : ∀ t t', a.graph.tx.mem t = true → b.graph.tx.mem t' = true → (asTx t).txid = (asTx t').txid → t = t') :
    cg.applyChangeset (a.append b) = (cg.applyChangeset a).applyChangeset b := by
  have hi := reachable_inv h
  have h1 := C07_append_is_sequential cg.chain a.chain b.chain (SparseChain.positionsAgree_of_consistent hi.cons) hl
  have h2 := C19_append_is_sequential cg.graph (graph_reachable h) a.graph b.graph hv
  unfold ChainGraph.applyChangeset CGChangeSet.append
  simp only [h1, h2]

omit [LawfulTx T] in
theorem reachable_limited {cg : ChainGraph P T} (h : ChainGraph.Reachable cg) : SparseChain.Limited cg.chain := by
  have hok : ∀ {ε : Type} (cg : ChainGraph P T) (r : Res ε (CGChangeSet P T)), SparseChain.Limited cg.chain →
      SparseChain.Limited (cg.applyOk r).1.chain := by
    intro ε cg r h
    unfold ChainGraph.applyOk
    cases r with
    | ok cs => exact SparseChain.applyChangeset_limited _ _
    | err e => exact h
    | panic => exact h
  induction h with
  | empty => intro n hn; cases hn
  | new so hc hg he =>
    obtain ⟨l, ops, rfl⟩ := hc
    unfold ChainGraph.new at he
    split at he
    · cases he
    · split at he
      · have := Except.ok.inj he
        subst this
        exact SparseChain.run_limited _ _ (by intro n hn; cases hn)
      · cases he
  | insertTx t pos o _ ih => exact hok _ _ ih
  | insertTxout op x _ ih => exact SparseChain.applyChangeset_limited _ _
  | insertCheckpoint b o _ ih => exact hok _ _ ih
  | invalidateCheckpoints h _ ih => exact SparseChain.applyChangeset_limited _ _
  | setCheckpointLimit l _ ih => exact SparseChain.prune_limited _
  | applyUpdate o _ _ ih _ => exact hok _ _ ih

/-- what one call reports: applying it gives the new state, and each transaction it carries is new and is the one stored -/
theorem step_log {cg : ChainGraph P T} (h : Reachable cg) (op : ChainGraph.Op P T)
    (hop : OpOk op) :
    (cg.step op).1 = cg.applyChangeset (cg.step op).2 ∧
    ∀ t, (cg.step op).2.graph.tx.mem t = true →
      cg.graph.getTx (asTx t).txid = none ∧ (cg.step op).1.graph.getTx (asTx t).txid = some t := by
  have hi := reachable_inv h
  have hemp : cg.applyChangeset CGChangeSet.empty = cg := by
    unfold ChainGraph.applyChangeset CGChangeSet.empty
    have : cg.chain.applyChangeset ChangeSet.empty = cg.chain :=
      SparseChain.applyChangeset_empty (reachable_limited h)
    simp only [this]; rfl
  have hok : ∀ {ε : Type} (r : Res ε (CGChangeSet P T)),
      (∀ cs, r = .ok cs → ∀ t, cs.graph.tx.mem t = true →
        cg.graph.getTx (asTx t).txid = none ∧ (cg.applyChangeset cs).graph.getTx (asTx t).txid = some t) →
      (cg.applyOk r).1 = cg.applyChangeset (logOf (cg.applyOk r).2) ∧
      ∀ t, (logOf (cg.applyOk r).2).graph.tx.mem t = true →
        cg.graph.getTx (asTx t).txid = none ∧ (cg.applyOk r).1.graph.getTx (asTx t).txid = some t := by
    intro ε r hr
    cases r with
    | ok cs => exact ⟨rfl, hr cs rfl⟩
    | err e => exact ⟨hemp.symm, fun t ht => by cases ht⟩
    | panic => exact ⟨hemp.symm, fun t ht => by cases ht⟩
  cases op with
  | insertTx t pos o =>
    apply hok
    intro cs hcs t' ht'
    have hgr : cs.graph = cg.graph.insertTxPreview t := by
      unfold insertTxPreview at hcs
      cases h1 : cg.chain.insertTxPreview (asTx t).txid pos o.chain with
      | panic => rw [h1] at hcs; cases hcs
      | err e => rw [h1] at hcs; cases hcs
      | ok c =>
        rw [h1] at hcs
        simp only [] at hcs
        obtain ⟨g1, g2⟩ := insertTx_conditions hi h1
        obtain ⟨f1, f2, f3⟩ := fix_spec hi ⟨c, cg.graph.insertTxPreview t⟩ o.spend g1 (fun k a b => (g2 k a b).2)
        cases hf : cg.fixConflicts ⟨c, cg.graph.insertTxPreview t⟩ o.spend with
        | panic => rw [hf] at hcs; cases hcs
        | err e => rw [hf] at hcs; cases hcs
        | ok r => rw [hf] at hcs; cases hcs; exact (f2 _ hf).2.1
    rw [hgr] at ht'
    have hst : (cg.applyChangeset cs).graph = (cg.graph.insertTx t).1 := by
      show cg.graph.applyAdditions cs.graph = _
      rw [hgr]; rfl
    rw [hst, TxGraph.insertTx_getTx]
    unfold TxGraph.insertTxPreview at ht'
    rw [TxGraph.determine_tx] at ht'
    obtain ⟨k, h1, h2⟩ := ht'
    rw [TxGraph.single_whole_getTx] at h1
    by_cases hk : k = (asTx t).txid
    · rw [if_pos hk] at h1; cases h1
      subst hk
      rw [h2]; simp
    · rw [if_neg hk] at h1; cases h1
  | insertTxout op x =>
    refine ⟨rfl, ?_⟩
    intro t ht
    exfalso
    change (cg.graph.insertTxoutPreview op x).tx.mem t = true at ht
    unfold TxGraph.insertTxoutPreview at ht
    rw [TxGraph.determine_tx] at ht
    obtain ⟨k, h1, -⟩ := ht
    rw [TxGraph.single_partial_getTx] at h1; cases h1
  | insertCheckpoint b o =>
    apply hok
    intro cs hcs t ht
    exfalso
    unfold insertCheckpointPreview at hcs
    cases h1 : cg.chain.insertCheckpointPreview b o.chain with
    | panic => rw [h1] at hcs; cases hcs
    | err e => rw [h1] at hcs; cases hcs
    | ok c => rw [h1] at hcs; cases hcs; cases ht
  | invalidateCheckpoints n =>
    exact ⟨rfl, fun t ht => by cases ht⟩
  | applyUpdate u o =>
    apply hok
    intro cs hcs t' ht'
    have hui := reachable_inv (show Reachable u from hop)
    have hgr : cs.graph = cg.graph.determineAdditions u.graph o.graph := by
      unfold ChainGraph.determineChangeset at hcs
      cases h1 : cg.chain.determineChangeset u.chain o.chain with
      | error e => rw [h1] at hcs; cases hcs
      | ok c =>
        rw [h1] at hcs
        simp only [] at hcs
        obtain ⟨g1, g2⟩ := update_conditions hi hui h1
        obtain ⟨f1, f2, f3⟩ := fix_spec hi ⟨c, cg.graph.determineAdditions u.graph o.graph⟩ o.spend g1
          (fun t a b => by obtain ⟨_, _, _, y, hy, _⟩ := g2 t a b; exact ⟨y, hy⟩)
        cases hf : cg.fixConflicts ⟨c, cg.graph.determineAdditions u.graph o.graph⟩ o.spend with
        | panic => rw [hf] at hcs; cases hcs
        | err e => rw [hf] at hcs; cases hcs
        | ok r => rw [hf] at hcs; cases hcs; exact (f2 _ hf).2.1
    rw [hgr, TxGraph.determine_tx] at ht'
    obtain ⟨k, h1, h2⟩ := ht'
    have hk := hui.wf.keys _ _ h1
    subst hk
    have hst : (cg.applyChangeset cs).graph = (cg.graph.applyUpdate u.graph o.graph).1 := by
      show cg.graph.applyAdditions cs.graph = _
      rw [hgr]; rfl
    rw [hst, TxGraph.applyUpdate_getTx hui.wf.keys, h1, h2]
    simp

/-- **C29** replaying the changesets reported along a history, one by one, reproduces the state (with a checkpoint limit or without) -/
theorem C29_replay_log (cg : ChainGraph P T) (h : Reachable cg)
    (ops : List (ChainGraph.Op P T)) (hops : ∀ op ∈ ops, OpOk op) :
    (cg.runLog ops).foldl ChainGraph.applyChangeset cg = cg.run ops := by
  induction ops generalizing cg with
  | nil => rfl
  | cons op ops ih =>
    have hs := step_log h op (hops op (by simp))
    show List.foldl _ (cg.applyChangeset (cg.step op).2) (runLog (cg.step op).1 ops) = ChainGraph.run (cg.step op).1 ops
    rw [← hs.1]
    exact ih _ (step_reachable h op (hops op (by simp))) (fun o ho => hops o (List.mem_cons_of_mem _ ho))

/-- **C29** … and so does applying their aggregate (`append` of all) at once to an empty chain graph: no proviso about
witness versions is needed for the changesets of a real history -/
theorem C29_replay_aggregate (ops : List (ChainGraph.Op P T)) (hops : ∀ op ∈ ops, OpOk op) :
    ChainGraph.empty.applyChangeset ((ChainGraph.empty.runLog ops).foldl CGChangeSet.append CGChangeSet.empty) =
      (ChainGraph.empty : ChainGraph P T).run ops := by
  have gen : ∀ (ops : List (ChainGraph.Op P T)) (cg : ChainGraph P T) (A : CGChangeSet P T), Reachable cg →
      cg.chain.checkpointLimit = none → (∀ op ∈ ops, OpOk op) → ChainGraph.empty.applyChangeset A = cg →
      (∀ t, A.graph.tx.mem t = true → cg.graph.getTx (asTx t).txid = some t) →
      ChainGraph.empty.applyChangeset ((cg.runLog ops).foldl CGChangeSet.append A) = cg.run ops := by
    intro ops
    induction ops with
    | nil => intro cg A _ _ _ hA _; exact hA
    | cons op ops ih =>
      intro cg A h hl hops hA hver
      have hs := step_log h op (hops op (by simp))
      show ChainGraph.empty.applyChangeset (List.foldl _ (A.append (cg.step op).2) (runLog (cg.step op).1 ops)) =
        ChainGraph.run (cg.step op).1 ops
      have hseq : ChainGraph.empty.applyChangeset (A.append (cg.step op).2) = (cg.step op).1 := by
        rw [C29_append_is_sequential ChainGraph.empty .empty rfl A _ ?_, hA, hs.1]
        intro t t' ht ht' heq
        have h1 := hver t ht
        have h2 := (hs.2 t' ht').1
        rw [heq, h2] at h1; cases h1
      refine ih _ _ (step_reachable h op (hops op (by simp))) ?_ (fun o ho => hops o (List.mem_cons_of_mem _ ho)) hseq ?_
      · rw [hs.1]
        show (cg.chain.applyChangeset _).checkpointLimit = none
        rw [SparseChain.applyChangeset_limit]; exact hl
      · intro t ht
        change (A.graph.append (cg.step op).2.graph).tx.mem t = true at ht
        rw [mem_append_tx, Bool.or_eq_true] at ht
        rcases ht with ht | ht
        · have h1 := hver t ht
          rw [hs.1]
          show (cg.graph.applyAdditions (cg.step op).2.graph).getTx _ = _
          rw [TxGraph.applyAdditions_getTx, h1]
          cases hlast : TxGraph.lastTx (cg.step op).2.graph.tx.toList (asTx t).txid with
          | none => rfl
          | some t' =>
            obtain ⟨a1, a2⟩ := TxGraph.lastTx_some hlast
            have := (hs.2 t' (OSet.mem_toList.1 a1)).1
            rw [a2, h1] at this; cases this
        · exact (hs.2 t ht).2
  refine gen ops _ _ .empty rfl hops ?_ (fun t ht => by cases ht)
  rfl

example : ((ChainGraph.empty : ChainGraph TxHeight DemoTx).runLog
    [.insertCheckpoint ⟨8, 18⟩ oId, .insertTx (d 1) .unconfirmed oId, .applyUpdate exConflict oId]).length = 3 ∧
    ChainGraph.empty.run [.insertCheckpoint ⟨8, 18⟩ oId, .insertTx (d 1) .unconfirmed oId, .applyUpdate exConflict oId] ≠
      (ChainGraph.empty : ChainGraph TxHeight DemoTx) := by decide

end

end Verif.Props
