import Verif.Lemmas.Sync5

/-!
# The wallet takes the answer of an honest server
-/

namespace Verif.Sync
open Verif Spec Props SparseChain ChainGraph
variable {K D P T : Type} [LinearOrder K] [DescriptorOps D] [DecidableEq D] [LinearOrder P] [ChainPosition P]
  [LawfulChainPosition P] [LinearOrder T] [AsTransaction T] [LawfulTx T]

theorem Ready.fit {t : Tracker K D P T} {v : View P T} (h : Ready t v) : Fit t.txoutIndex :=
  ⟨KeychainIndex.reachable_inv (tracker_parts h.reachable).1 h.derivable, h.derivable, h.distinct, h.room⟩

/-- what is true of the wallet afterwards -/
structure After (t : Tracker K D P T) (v : View P T) (S : Txid → Prop) (la : OMap K Nat) (t' : Tracker K D P T) : Prop where
  ready : Ready t' v
  headers : ∀ h b, t'.chainGraph.chain.checkpointAt h = some b → v.header h = some b.hash
  limit : t'.chainGraph.chain.checkpointLimit = t.chainGraph.chain.checkpointLimit
  tip : t.chainGraph.chain.checkpointLimit ≠ some 0 → t'.chainGraph.chain.latestCheckpoint = some v.tip
  confirmed : ∀ x p k, t'.chainGraph.chain.txPosition x = some p → ChainPosition.height p = .confirmed k → ∃ y, v.find x = some (y, p)
  found : ∀ x e, v.find x = some e → S x → t'.chainGraph.chain.txPosition x = some e.2 ∧
    ∃ y, t'.chainGraph.graph.getTx x = some y ∧ asTx y = asTx e.1
  only : ∀ x, InChain t'.chainGraph.chain x → (S x ∧ ∃ e, v.find x = some e) ∨ InChain t.chainGraph.chain x
  graph : ∀ x y, t'.chainGraph.graph.getTx x = some y → t.chainGraph.graph.getTx x = some y ∨ ∃ e, v.find x = some e ∧ asTx e.1 = asTx y
  graphKept : ∀ x y, t.chainGraph.graph.getTx x = some y → t'.chainGraph.graph.getTx x = some y
  kept : ∀ x e, v.find x = some e → ¬ S x → InChain t.chainGraph.chain x → InChain t'.chainGraph.chain x
  unconfirmed : ∀ x e, v.find x = some e → ¬ S x → t.chainGraph.chain.txPosition x = some (unconfirmedPos P) →
    t'.chainGraph.chain.txPosition x = some (unconfirmedPos P)
  same : (∀ a b, t.chainGraph.chain.checkpointAt a = some b → v.header a = some b.hash) → ∀ x e p, v.find x = some e → ¬ S x →
    t.chainGraph.chain.txPosition x = some p → t'.chainGraph.chain.txPosition x = some p
  keychains : t'.txoutIndex.keychains = t.txoutIndex.keychains
  revealed : ∀ k, numRevealed t.txoutIndex k ≤ numRevealed t'.txoutIndex k
  lastActive : ∀ k i, la.get k = some i → i < numRevealed t'.txoutIndex k
  indexed : ∀ op x p k i, OutputIn v.find op x p → S op.txid → (stored t.txoutIndex k i = some x.spk ∨
      ∃ d j, t.txoutIndex.keychains.get k = some d ∧ i ≤ cap d ∧ spkAt d i = some x.spk ∧ la.get k = some j ∧ i ≤ j) →
    (t.chainGraph.graph.getTx op.txid = none ∨ t.txoutIndex.inner.txout op = some (toLex (k, i), x)) →
    t'.txoutIndex.inner.txout op = some (toLex (k, i), x)
  unknown : ∀ x, v.find x = none → InChain t.chainGraph.chain x → (InChain t'.chainGraph.chain x ↔
    ¬ ∃ z e, v.find z = some e ∧ S z ∧ ¬ InChain t.chainGraph.chain z ∧ ChainConflict t.chainGraph.chain t.chainGraph.graph (asTx e.1) x)
  unknownPos : ∀ x p, v.find x = none → t.chainGraph.chain.txPosition x = some p → ChainPosition.height p = .unconfirmed →
    InChain t'.chainGraph.chain x → t'.chainGraph.chain.txPosition x = some p
  indexKept : ∀ op, t.chainGraph.graph.getTx op.txid ≠ none → t'.txoutIndex.inner.txout op = t.txoutIndex.inner.txout op

theorem take_answer {t : Tracker K D P T} {v : View P T} (h : Ready t v) (hv : v.Sound) {S : Txid → Prop}
    {sc : KeychainScan K P T} (ha : Answer v t.chainGraph.chain S sc.update) (o : Orders P T)
    (hla : ∀ k i, sc.lastActiveIndices.get k = some i → ∃ d, t.txoutIndex.keychains.get k = some d ∧ i ≤ cap d) :
    ∃ t' cs, t.applyUpdate sc o = some (t', .ok cs) ∧ After t v S sc.lastActiveIndices t' := by
  have hcg := (tracker_parts h.reachable).2
  have hi := reachable_inv hcg
  have hui := reachable_inv ha.reach
  have hfull : ∀ x, S x → (∃ e, v.find x = some e) → sc.update.graph.getTx x ≠ none := by
    rintro x h1 ⟨e, he⟩
    obtain ⟨y, hy⟩ := hui.full x (by unfold InChain; rw [(ha.pos x e.2).2 ⟨h1, e.1, he⟩]; simp)
    rw [hy]; simp
  have hw := fun x p k hp hk hn => ha.truthful h.linked h.truthful x p k hp hk hn
  obtain ⟨cs0, hcs0⟩ := update_truth hcg ha.reach o hv.truth h.heights ha.tells ha.connected hw
  obtain ⟨t', cs, hap⟩ := applyUpdate_ok h.fit sc o hla hcs0
  refine ⟨t', cs, hap, ?_⟩
  have hst := applyUpdate_parts hap
  obtain ⟨hA, hA2, hA3, hA4⟩ := applied_truth hcg ha.reach o hv.truth h.heights ha.tells hst.ok
  rw [← hst.chain] at hA
  obtain ⟨hC1, hC2, hC3⟩ := update_cps hcg ha.reach o h.heights hst.ok
  rw [← hst.chain] at hC1 hC2
  simp only [← hst.chain] at hC3 hA2 hA3 hA4
  obtain ⟨hI1, hI2, hI3, hI4, hI5, hI6, hI7⟩ := stepped_index h.fit hst hui.wf.keys hla
  have hr' : t'.Reachable := Tracker.Reachable.applyUpdate sc o _ h.reachable ha.reach hap
  have hheaders : ∀ a b, t'.chainGraph.chain.checkpointAt a = some b → v.header a = some b.hash := by
    intro a b hb
    rcases hC1 a b hb with h1 | ⟨-, h2, h3⟩
    · exact ha.headers a b h1
    · exact ha.agree h.linked h2 a b (le_refl a) h3
  have hconf : ∀ x p k, t'.chainGraph.chain.txPosition x = some p → ChainPosition.height p = .confirmed k → ∃ y, v.find x = some (y, p) := by
    intro x p k hp hk
    cases hu : sc.update.chain.txPosition x with
    | some q =>
      have := hA.taken x q hu
      rw [hp] at this
      cases this
      exact ha.tells x _ hu
    | none =>
      have hin := hA.only x (by unfold InChain; rw [hp]; simp)
      rcases hin with h1 | h1
      · exact absurd hu h1
      · obtain ⟨p0, hp0⟩ := Option.ne_none_iff_exists'.1 h1
        rcases hA.kept x p0 p hp0 hu hp with ⟨rfl, h2⟩ | ⟨rfl, -⟩
        · exact hw x p k hp0 hk (h2 k hk)
        · rw [unconfirmedPos_height] at hk; cases hk
  have hbelow : ∀ k, HasCp t'.chainGraph.chain k → k ≤ v.tip.height := by
    rintro k ⟨b, hb⟩
    exact (hv.headers k).1 ⟨_, hheaders k b hb⟩
  have hfound : ∀ x e, v.find x = some e → S x → t'.chainGraph.chain.txPosition x = some e.2 ∧
      ∃ y, t'.chainGraph.graph.getTx x = some y ∧ asTx y = asTx e.1 := by
    intro x e he hS
    have h1 := hA.taken x e.2 ((ha.pos x e.2).2 ⟨hS, e.1, he⟩)
    refine ⟨h1, ?_⟩
    obtain ⟨y, hy⟩ := (reachable_inv (tracker_parts hr').2).full x (by unfold InChain; rw [h1]; simp)
    refine ⟨y, hy, LawfulTx.txid_inj _ _ ?_⟩
    rw [(reachable_inv (tracker_parts hr').2).wf.keys _ _ hy, hv.truth.ids _ _ he]
  have hnew : ∀ op y, (op, y) ∈ cs.chainGraph.graph.txouts → t.chainGraph.graph.getTx op.txid = none := by
    intro op y hm
    rw [hst.graph] at hm
    unfold Additions.txouts at hm
    rw [List.mem_append] at hm
    rcases hm with hm | hm
    · obtain ⟨tx, h1, h2⟩ := List.mem_flatMap.1 hm
      obtain ⟨k, h3, h4⟩ := (TxGraph.determine_tx _ _ _ _).1 (OSet.mem_toList.1 h1)
      rw [(mem_txouts.1 h2).1, hui.wf.keys _ _ h3]
      exact h4
    · have := OMap.mem_entries.1 hm
      rw [TxGraph.determine_txout] at this
      split at this
      · next hc => exact hc.1
      · cases this
  refine ⟨⟨hr', hI1.der, hI1.nc, hI1.room, ⟨?_, ?_⟩, hbelow, ?_, ?_⟩, hheaders, hC2, ?_, hconf, hfound, ?_, ?_, ?_, ?_, ?_, ?_, hI2, hI4, hI5, ?_, ?_, ?_, ?_⟩
  · intro k hk; exact lt_of_le_of_lt (hbelow k hk) hv.small
  · intro x p k hp hk
    obtain ⟨y, hy⟩ := hconf x p k hp hk
    exact lt_of_le_of_lt (hv.below x y p k hy hk) hv.small
  · intro a b x y _ hx _ _; exact hheaders a x hx
  · intro x p k hp hk _; exact hconf x p k hp hk
  · intro hl; exact hC3 hl _ ha.tip h.below
  · intro x hx
    rcases hA.only x hx with h1 | h1
    · obtain ⟨q, hq⟩ := Option.ne_none_iff_exists'.1 h1
      obtain ⟨h2, y, hy⟩ := (ha.pos x q).1 hq
      exact .inl ⟨h2, _, hy⟩
    · exact .inr h1
  · intro x y hy
    have hk := (reachable_inv (tracker_parts hr').2).wf.keys _ _ hy
    rw [hA.graph] at hy
    cases hx : t.chainGraph.graph.getTx x with
    | some y' => rw [hx] at hy; exact .inl hy
    | none =>
      rw [hx] at hy
      obtain ⟨e, he⟩ := ha.graph x y hy
      exact .inr ⟨e, he, LawfulTx.txid_inj _ _ (by rw [hk, hv.truth.ids _ _ he])⟩
  · intro x y hy; rw [hA.graph, hy]; rfl
  · intro x e he _ hx; exact hA3 x e he hx
  · intro x e he hS hp
    have hu : sc.update.chain.txPosition x = none := by
      cases hu : sc.update.chain.txPosition x with
      | none => rfl
      | some q => exact absurd ((ha.pos x q).1 hu).1 hS
    exact hA2 x e _ he hu hp (by intro k hk; rw [unconfirmedPos_height] at hk; cases hk)
  · intro hall x e p he hS hp
    have hu : sc.update.chain.txPosition x = none := by
      cases hu : sc.update.chain.txPosition x with
      | none => rfl
      | some q => exact absurd ((ha.pos x q).1 hu).1 hS
    exact hA2 x e _ he hu hp (fun k _ => ha.none_invalid hall k)
  · intro op x p k i ⟨y, hy, hyo⟩ hS hor hknown
    have hfu := hfull _ hS ⟨_, hy⟩
    obtain ⟨yu, hyu⟩ := Option.ne_none_iff_exists'.1 hfu
    have hasu : asTx yu = asTx y := LawfulTx.txid_inj _ _ (by rw [hui.wf.keys _ _ hyu]; exact (hv.truth.ids _ _ hy).symm)
    by_cases hg : t.chainGraph.graph.getTx op.txid = none
    · refine hI7 op x k i ?_ hor
      rw [hst.graph]
      unfold Additions.txouts
      rw [List.mem_append]
      left
      rw [List.mem_flatMap]
      refine ⟨yu, OSet.mem_toList.2 ((TxGraph.determine_tx _ _ _ _).2 ⟨_, hyu, hg⟩), mem_txouts.2 ⟨?_, ?_⟩⟩
      · exact (hui.wf.keys _ _ hyu).symm
      · rw [hasu]; exact hyo
    · rcases hknown with h1 | h1
      · exact absurd h1 hg
      · rw [hI6]
        · exact h1
        · intro y' hy'
          exact hg (hnew op y' hy')
  · intro x _ hx
    rw [hA4 x hx]
    refine not_congr ⟨?_, ?_⟩
    · rintro ⟨z, y, h1, h2, h3, h4⟩
      obtain ⟨q, hq⟩ := Option.ne_none_iff_exists'.1 h1
      obtain ⟨h5, y', hy'⟩ := (ha.pos z q).1 hq
      have : asTx y = asTx y' := LawfulTx.txid_inj _ _ (by rw [hui.wf.keys _ _ h3]; exact (hv.truth.ids _ _ hy').symm)
      exact ⟨z, _, hy', h5, h2, by rw [← this]; exact h4⟩
    · rintro ⟨z, e, h1, h2, h3, h4⟩
      have hin : InChain sc.update.chain z := by unfold InChain; rw [(ha.pos z e.2).2 ⟨h2, e.1, h1⟩]; simp
      obtain ⟨y, hy⟩ := hui.full z hin
      have : asTx y = asTx e.1 := LawfulTx.txid_inj _ _ (by rw [hui.wf.keys _ _ hy]; exact (hv.truth.ids _ _ h1).symm)
      exact ⟨z, y, hin, h3, hy, by rw [this]; exact h4⟩
  · intro x p hx hp hh hin
    obtain ⟨q, hq⟩ := Option.ne_none_iff_exists'.1 hin
    have hu : sc.update.chain.txPosition x = none := by
      cases hu : sc.update.chain.txPosition x with
      | none => rfl
      | some q' => obtain ⟨-, y, hy⟩ := (ha.pos x q').1 hu; rw [hx] at hy; cases hy
    rcases hA.kept x p q hp hu hq with ⟨rfl, -⟩ | ⟨-, k, hk, -⟩
    · exact hq
    · rw [hh] at hk; cases hk
  · intro op hop
    rw [hI6]
    intro y' hy'
    exact hop (hnew op y' hy')

/-- what becomes of a transaction that the server does not know -/
theorem After.fate {t t' : Tracker K D P T} {v : View P T} {S : Txid → Prop} {la : OMap K Nat} (h : After t v S la t') {x : Txid}
    (hx : v.find x = none) (hin : InChain t.chainGraph.chain x) :
    (InChain t'.chainGraph.chain x ↔ ¬ Overruled t t' x) ∧ (InChain t'.chainGraph.chain x → IsUnconfirmed t'.chainGraph.chain x ∧
      (IsUnconfirmed t.chainGraph.chain x → t'.chainGraph.chain.txPosition x = t.chainGraph.chain.txPosition x)) := by
  refine ⟨?_, fun hin' => ⟨?_, ?_⟩⟩
  · rw [h.unknown x hx hin]
    refine not_congr ⟨?_, ?_⟩
    · rintro ⟨z, e, h1, h2, h3, h4⟩
      obtain ⟨h5, y, h6, h7⟩ := h.found z e h1 h2
      exact ⟨z, y, h3, by unfold InChain; rw [h5]; simp, h6, by rw [h7]; exact h4⟩
    · rintro ⟨z, y, h1, h2, h3, h4⟩
      rcases h.only z h2 with ⟨h5, e, he⟩ | h5
      · obtain ⟨-, y', h6, h7⟩ := h.found z e he h5
        rw [h3] at h6
        cases h6
        exact ⟨z, e, he, h5, h1, by rw [← h7]; exact h4⟩
      · exact absurd h5 h1
  · obtain ⟨q, hq⟩ := Option.ne_none_iff_exists'.1 hin'
    cases hk : ChainPosition.height q with
    | unconfirmed => exact ⟨q, hq, hk⟩
    | confirmed k => obtain ⟨y, hy⟩ := h.confirmed x q k hq hk; rw [hx] at hy; cases hy
  · rintro ⟨p, hp, hh⟩
    rw [h.unknownPos x p hx hp hh hin', hp]

end Verif.Sync
