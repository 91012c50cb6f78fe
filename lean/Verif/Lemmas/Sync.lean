import Verif.Spec.Sync
import Verif.Props.ChainGraph
import Verif.Props.SparseChain

/-!
# An update that tells the truth, applied to a chain graph
-/

namespace Verif.Sync
open Verif Spec SparseChain ChainGraph Props
variable {P T : Type} [LinearOrder P] [ChainPosition P] [LawfulChainPosition P] [LinearOrder T] [AsTransaction T] [LawfulTx T]

/-- the update's transactions are there, at the positions it gives -/
def Tells (f : Truth P T) (u : ChainGraph P T) : Prop := ∀ x p, u.chain.txPosition x = some p → ∃ y, f x = some (y, p)

theorem truth_not_displaced {cg : ChainGraph P T} (hr : Reachable cg) {f : Truth P T} (hf : f.Sound) {x : T} {e : T × P}
    (hx : f (asTx x).txid = some e) {c : Txid} {e' : T × P} (hc : f c = some e') : ¬ ChainConflict cg.chain cg.graph (asTx x) c := by
  have hi := reachable_inv hr
  have same : ∀ {c : Txid} {y : T} {e : T × P}, cg.graph.getTx c = some y → f c = some e → asTx e.1 = asTx y := by
    intro c y e h1 h2
    exact LawfulTx.txid_inj _ _ ((hf.ids _ _ h2).trans (hi.wf.keys _ _ h1).symm)
  rintro ⟨-, h⟩
  induction h generalizing e' with
  | start h =>
    obtain ⟨vin, o, h1, ⟨y, h2, h3, h4⟩, h5⟩ := h
    have ex : asTx e.1 = asTx x := LawfulTx.txid_inj _ _ (hf.ids _ _ hx)
    have ec := same h2 hc
    exact h5 (hf.no_double_spend _ _ _ _ o hc hx (by rw [ec]; exact h3) (by rw [ex]; exact List.mem_of_getElem? h1) h4)
  | step hp ha hch ih =>
    obtain ⟨v, hv⟩ := hch
    obtain ⟨y, h2, h3, h4⟩ := (hi.wf.spends.1 _ _).1 hv
    obtain ⟨e'', he⟩ := hf.parents _ _ _ hc (by rw [same h2 hc]; exact h3) h4
    exact ih he

/-- an update that tells the truth is accepted by a wallet that is right about what is not invalidated, and then the wallet has
what the update has -/
theorem update_truth {cg u : ChainGraph P T} (hr : Reachable cg) (hu : Reachable u) (o : Orders P T) {f : Truth P T} (hf : f.Sound)
    (hok : HeightsOk cg.chain) (ht : Tells f u) (hcon : ∀ k, ¬ Disconnected cg.chain u.chain k)
    (hw : ∀ x p k, cg.chain.txPosition x = some p → ChainPosition.height p = .confirmed k → ¬ Invalidated cg.chain u.chain k →
      ∃ y, f x = some (y, p)) : ∃ cs, (cg.applyUpdate u o).2 = .ok cs := by
  have hi := reachable_inv hr
  have hui := reachable_inv hu
  have hpos : PositionsAgree cg.chain := positionsAgree_of_consistent hi.cons
  have h1 : ∃ cs, cg.chain.determineChangeset u.chain o.chain = .ok cs := by
    rw [determine_ok_iff hok]
    refine ⟨hcon, ?_⟩
    rintro t p q ⟨hp, hq, hne, k, hk, hs⟩
    obtain ⟨y, hy⟩ := ht t q hq
    obtain ⟨y', hy'⟩ := hw t p k hp hk (by
      rintro ⟨f, ⟨hd, -, ha, -⟩, hle⟩
      obtain ⟨a, h1, h2⟩ := hs hd
      have := ha a h1
      omega)
    rw [hy] at hy'
    cases hy'
    exact hne rfl
  obtain ⟨cs0, h1⟩ := h1
  have hplain : (cg.chain.applyUpdate u.chain o.chain).2 = .ok cs0 := by unfold SparseChain.applyUpdate; rw [h1]
  have happ : cg.chain.applyUpdate u.chain o.chain = ((cg.chain.applyUpdate u.chain o.chain).1, .ok cs0) := Prod.ext rfl hplain
  obtain ⟨-, h26⟩ := C26_update cg u hr hu o
  obtain ⟨hiff, -⟩ := h26 cs0 hplain
  rw [hiff]
  intro t c ⟨hnt, hit, x, hx, hcf⟩
  have hpt := C03_positions_after_update _ _ _ _ _ hok hpos happ t
  have hpc := C03_positions_after_update _ _ _ _ _ hok hpos happ c
  have hnt' : cg.chain.txPosition t = none := by unfold InChain at hnt; simpa using hnt
  -- the new transaction is one of the update
  have hut : ∃ q, u.chain.txPosition t = some q := by
    cases hq : u.chain.txPosition t with
    | some q => exact ⟨q, rfl⟩
    | none => exact absurd (hpt.2.1 hq hnt') hit
  obtain ⟨q, hq⟩ := hut
  obtain ⟨y, hy⟩ := ht t q hq
  have hxt : (asTx x).txid = t := by
    rw [TxGraph.applyUpdate_getTx hui.wf.keys] at hx
    cases hg : cg.graph.getTx t with
    | some z => rw [hg] at hx; cases hx; exact hi.wf.keys _ _ hg
    | none => rw [hg] at hx; exact hui.wf.keys _ _ hx
  have hno : ∀ e', f c = some e' → False := fun e' he' => truth_not_displaced hr hf (x := x) (by rw [hxt]; exact hy) he' hcf
  obtain ⟨p, hp⟩ := Option.ne_none_iff_exists'.1 hcf.1
  cases hqc : u.chain.txPosition c with
  | some q' => obtain ⟨y', hy'⟩ := ht c q' hqc; exact (hno _ hy').elim
  | none =>
    cases hh : ChainPosition.height p with
    | unconfirmed => exact ⟨p, hpc.2.2.2 p hqc hp (by rintro ⟨k, hk, -⟩; rw [hh] at hk; cases hk), hh⟩
    | confirmed k =>
      by_cases hinv : Invalidated cg.chain u.chain k
      · exact ⟨_, hpc.2.2.1 p hqc hp ⟨k, hh, hinv⟩, unconfirmedPos_height⟩
      · obtain ⟨y', hy'⟩ := hw c p k hp hh hinv
        exact (hno _ hy').elim

/-- what such an update does when it is accepted -/
structure Applied (cg u cg' : ChainGraph P T) : Prop where
  graph : ∀ x, cg'.graph.getTx x = (cg.graph.getTx x).or (u.graph.getTx x)
  taken : ∀ x q, u.chain.txPosition x = some q → cg'.chain.txPosition x = some q
  only : ∀ x, InChain cg'.chain x → InChain u.chain x ∨ InChain cg.chain x
  kept : ∀ x p q, cg.chain.txPosition x = some p → u.chain.txPosition x = none → cg'.chain.txPosition x = some q →
    (q = p ∧ ∀ k, ChainPosition.height p = .confirmed k → ¬ Invalidated cg.chain u.chain k) ∨
    (q = unconfirmedPos P ∧ ∃ k, ChainPosition.height p = .confirmed k ∧ Invalidated cg.chain u.chain k)

theorem applied_truth {cg u : ChainGraph P T} (hr : Reachable cg) (hu : Reachable u) (o : Orders P T) {f : Truth P T} (hf : f.Sound)
    (hok : HeightsOk cg.chain) (ht : Tells f u) {cs} (h : (cg.applyUpdate u o).2 = .ok cs) :
    Applied cg u (cg.applyUpdate u o).1 ∧ (∀ x e p, f x = some e → u.chain.txPosition x = none → cg.chain.txPosition x = some p →
      (∀ k, ChainPosition.height p = .confirmed k → ¬ Invalidated cg.chain u.chain k) →
      (cg.applyUpdate u o).1.chain.txPosition x = some p) ∧
      (∀ x e, f x = some e → InChain cg.chain x → InChain (cg.applyUpdate u o).1.chain x) ∧
      ∀ x, InChain cg.chain x → (InChain (cg.applyUpdate u o).1.chain x ↔
        ¬ ∃ t y, InChain u.chain t ∧ ¬ InChain cg.chain t ∧ u.graph.getTx t = some y ∧ ChainConflict cg.chain cg.graph (asTx y) x) := by
  have hi := reachable_inv hr
  have hui := reachable_inv hu
  have hpos : PositionsAgree cg.chain := positionsAgree_of_consistent hi.cons
  obtain ⟨h0, h26⟩ := C26_update cg u hr hu o
  cases hplain : (cg.chain.applyUpdate u.chain o.chain).2 with
  | error e => rw [h0 e hplain] at h; cases h
  | ok cs0 =>
    have happ : cg.chain.applyUpdate u.chain o.chain = ((cg.chain.applyUpdate u.chain o.chain).1, .ok cs0) := Prod.ext rfl hplain
    obtain ⟨-, h1, -⟩ := h26 cs0 hplain
    obtain ⟨hg, -, hD, hN⟩ := h1 cs h
    have hP := fun x => C03_positions_after_update _ _ _ _ _ hok hpos happ x
    -- transactions that are there are not displaced
    have hnoD : ∀ x e, f x = some e → ¬ ∃ t, Displaces cg.chain (cg.chain.applyUpdate u.chain o.chain).1 cg.graph
        (cg.graph.applyUpdate u.graph o.graph).1 t x := by
      rintro c e' he' ⟨t, hnt, hit, x, hx, hcf⟩
      have hnt' : cg.chain.txPosition t = none := by unfold InChain at hnt; simpa using hnt
      have hut : ∃ q, u.chain.txPosition t = some q := by
        cases hq : u.chain.txPosition t with
        | some q => exact ⟨q, rfl⟩
        | none => exact absurd ((hP t).2.1 hq hnt') hit
      obtain ⟨q, hq⟩ := hut
      obtain ⟨y, hy⟩ := ht t q hq
      have hxt : (asTx x).txid = t := by
        rw [TxGraph.applyUpdate_getTx hui.wf.keys] at hx
        cases hg : cg.graph.getTx t with
        | some z => rw [hg] at hx; cases hx; exact hi.wf.keys _ _ hg
        | none => rw [hg] at hx; exact hui.wf.keys _ _ hx
      exact truth_not_displaced hr hf (x := x) (by rw [hxt]; exact hy) he' hcf
    have hsome : ∀ x q, (cg.applyUpdate u o).1.chain.txPosition x = some q →
        (cg.chain.applyUpdate u.chain o.chain).1.txPosition x = some q := by
      intro x q hq
      by_cases hd : ∃ t, Displaces cg.chain (cg.chain.applyUpdate u.chain o.chain).1 cg.graph
        (cg.graph.applyUpdate u.graph o.graph).1 t x
      · rw [hD x hd] at hq; cases hq
      · rw [hN x hd] at hq; exact hq
    refine ⟨⟨?_, ?_, ?_, ?_⟩, ?_, ?_, ?_⟩
    · intro x; rw [hg]; exact TxGraph.applyUpdate_getTx hui.wf.keys _ _
    · intro x q hq
      obtain ⟨y, hy⟩ := ht x q hq
      rw [hN x (hnoD x _ hy)]
      exact (hP x).1 q hq
    · intro x hx
      obtain ⟨q, hq⟩ := Option.ne_none_iff_exists'.1 hx
      have := hsome x q hq
      by_contra hno
      push Not at hno
      unfold InChain at hno
      simp only [not_not] at hno
      rw [(hP x).2.1 hno.1 hno.2] at this
      cases this
    · intro x p q hp hq hq'
      have := hsome x q hq'
      by_cases hinv : ∃ k, ChainPosition.height p = .confirmed k ∧ Invalidated cg.chain u.chain k
      · rw [(hP x).2.2.1 p hq hp hinv] at this
        cases this
        exact Or.inr ⟨rfl, hinv⟩
      · rw [(hP x).2.2.2 p hq hp hinv] at this
        cases this
        exact Or.inl ⟨rfl, fun k hk hk' => hinv ⟨k, hk, hk'⟩⟩
    · intro x e p he hq hp hni
      rw [hN x (hnoD x _ he)]
      exact (hP x).2.2.2 p hq hp (by rintro ⟨k, hk, hk'⟩; exact hni k hk hk')
    · intro x e he hx
      obtain ⟨p, hp⟩ := Option.ne_none_iff_exists'.1 hx
      unfold InChain
      rw [hN x (hnoD x _ he)]
      cases hq : u.chain.txPosition x with
      | some q => rw [(hP x).1 q hq]; simp
      | none =>
        by_cases hinv : ∃ k, ChainPosition.height p = .confirmed k ∧ Invalidated cg.chain u.chain k
        · rw [(hP x).2.2.1 p hq hp hinv]; simp
        · rw [(hP x).2.2.2 p hq hp hinv]; simp
    · intro x hx
      have hplainx : (cg.chain.applyUpdate u.chain o.chain).1.txPosition x ≠ none := by
        obtain ⟨p, hp⟩ := Option.ne_none_iff_exists'.1 hx
        cases hq : u.chain.txPosition x with
        | some q => rw [(hP x).1 q hq]; simp
        | none =>
          by_cases hinv : ∃ k, ChainPosition.height p = .confirmed k ∧ Invalidated cg.chain u.chain k
          · rw [(hP x).2.2.1 p hq hp hinv]; simp
          · rw [(hP x).2.2.2 p hq hp hinv]; simp
      have hg' := fun k => TxGraph.applyUpdate_getTx (g := cg.graph) (u := u.graph) hui.wf.keys o.graph k
      have hsame : ∀ t y z, u.graph.getTx t = some y → (cg.graph.applyUpdate u.graph o.graph).1.getTx t = some z → asTx z = asTx y := by
        intro t y z hy hz
        refine LawfulTx.txid_inj _ _ ?_
        rw [hui.wf.keys _ _ hy]
        rw [hg'] at hz
        cases hc : cg.graph.getTx t with
        | some z' => rw [hc] at hz; cases hz; exact hi.wf.keys _ _ hc
        | none => rw [hc] at hz; exact hui.wf.keys _ _ hz
      constructor
      · rintro hin ⟨t, y, h1, h2, h3, h4⟩
        refine hin (hD x ⟨t, h2, ?_, ?_⟩)
        · obtain ⟨q, hq⟩ := Option.ne_none_iff_exists'.1 h1
          unfold InChain; rw [(hP t).1 q hq]; simp
        · have hex : ∃ z, (cg.graph.applyUpdate u.graph o.graph).1.getTx t = some z := by
            rw [hg', h3]; cases cg.graph.getTx t <;> simp
          obtain ⟨z, hz⟩ := hex
          exact ⟨z, hz, by rw [hsame t y z h3 hz]; exact h4⟩
      · intro hno
        unfold InChain
        rw [hN x]
        · exact hplainx
        · rintro ⟨t, hnt, hit, z, hz, hcf⟩
          have hut : InChain u.chain t := by
            intro hq
            exact hit ((hP t).2.1 hq (by unfold InChain at hnt; simpa using hnt))
          obtain ⟨y, hy⟩ := hui.full t hut
          exact hno ⟨t, y, hut, hnt, hy, by rw [← hsame t y z hy hz]; exact hcf⟩

end Verif.Sync
