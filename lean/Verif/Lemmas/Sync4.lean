import Verif.Lemmas.Sync3
import Verif.Lemmas.Esplora9
import Verif.Props.Accessors

/-!
# The update a wallet gets from an honest esplora server
-/

namespace Verif.Sync
open Verif Spec Props SparseChain ChainGraph
variable {P T : Type} [LinearOrder P] [ChainPosition P] [LawfulChainPosition P] [LinearOrder T] [AsTransaction T] [LawfulTx T]

/-- the blocks after an accepted update -/
theorem update_cps {cg u : ChainGraph P T} (hr : Reachable cg) (hu : Reachable u) (o : Orders P T) (hok : HeightsOk cg.chain)
    {cs} (h : (cg.applyUpdate u o).2 = .ok cs) :
    (∀ k b, (cg.applyUpdate u o).1.chain.checkpointAt k = some b → u.chain.checkpointAt k = some b ∨
      (¬ HasCp u.chain k ∧ ¬ Invalidated cg.chain u.chain k ∧ cg.chain.checkpointAt k = some b)) ∧
    ((cg.applyUpdate u o).1.chain.checkpointLimit = cg.chain.checkpointLimit) ∧
    (cg.chain.checkpointLimit ≠ some 0 → ∀ b, u.chain.latestCheckpoint = some b → (∀ k, HasCp cg.chain k → k ≤ b.height) →
      (cg.applyUpdate u o).1.chain.latestCheckpoint = some b) := by
  have hi := reachable_inv hr
  have hpos : PositionsAgree cg.chain := positionsAgree_of_consistent hi.cons
  obtain ⟨h0, h26⟩ := C26_update cg u hr hu o
  cases hplain : (cg.chain.applyUpdate u.chain o.chain).2 with
  | error e => rw [h0 e hplain] at h; cases h
  | ok cs0 =>
    obtain ⟨-, h1, -⟩ := h26 cs0 hplain
    obtain ⟨-, hcp, -, -⟩ := h1 cs h
    have hd : cg.chain.determineChangeset u.chain o.chain = .ok cs0 := by
      unfold SparseChain.applyUpdate at hplain
      cases hd : cg.chain.determineChangeset u.chain o.chain with
      | error e => rw [hd] at hplain; cases hplain
      | ok c => rw [hd] at hplain; cases hplain; rfl
    have hplain1 : (cg.chain.applyUpdate u.chain o.chain).1 = cg.chain.applyChangeset cs0 := by
      unfold SparseChain.applyUpdate; rw [hd]
    have happ : (unlimited cg.chain).applyUpdate u.chain o.chain = ((unlimited cg.chain).applyChangeset cs0, .ok cs0) := by
      unfold SparseChain.applyUpdate; rw [determine_unlimited, hd]
    have h03 := C03_checkpoints_after_update (unlimited cg.chain) u.chain _ o.chain cs0 hok
      (show PositionsAgree (unlimited cg.chain) from hpos) rfl happ
    have hpr : cg.chain.applyChangeset cs0 = ((unlimited cg.chain).applyChangeset cs0).setCheckpointLimit cg.chain.checkpointLimit :=
      applyChangeset_unlimited _ _
    generalize hq : (unlimited cg.chain).applyChangeset cs0 = q at *
    have hsub : ∀ k b, (q.setCheckpointLimit cg.chain.checkpointLimit).checkpointAt k = some b → q.checkpointAt k = some b := by
      intro k b hb
      cases hl : cg.chain.checkpointLimit with
      | none => rw [hl] at hb; unfold SparseChain.setCheckpointLimit at hb; rw [prune_none _ rfl] at hb; exact hb
      | some n =>
        rw [hl] at hb
        unfold SparseChain.checkpointAt at hb ⊢
        unfold SparseChain.setCheckpointLimit at hb
        rw [prune_get rfl] at hb
        split at hb
        · exact hb
        · cases hb
    refine ⟨?_, ?_, ?_⟩
    · intro k b hb
      rw [hcp, hplain1, hpr] at hb
      have hb' := hsub k b hb
      obtain ⟨e1, e2, e3⟩ := h03 k
      by_cases hu : HasCp u.chain k
      · left; rw [← e1 hu]; exact hb'
      · right
        by_cases hi : Invalidated cg.chain u.chain k
        · rw [e2 hu hi] at hb'; cases hb'
        · refine ⟨hu, hi, ?_⟩
          have := e3 hu hi
          rw [this] at hb'; exact hb'
    · cases hdc : cg.determineChangeset u o with
      | panic => unfold ChainGraph.applyUpdate at h; rw [hdc] at h; cases h
      | err e => unfold ChainGraph.applyUpdate at h; rw [hdc] at h; cases h
      | ok c =>
        rw [(chain_changeset hdc).2]
        show (cg.chain.applyChangeset c.chain).checkpointLimit = _
        rw [applyChangeset_unlimited]
        unfold SparseChain.setCheckpointLimit SparseChain.pruneCheckpoints
        split
        · rfl
        · split <;> rfl
    · intro hl b hb hle
      obtain ⟨ht, hbu⟩ := Electrum.latestCheckpoint_eq.1 hb
      have hqb : q.checkpointAt b.height = some b := by rw [(h03 b.height).1 ht.1]; exact hbu
      have hqt : IsTip q b.height := by
        refine ⟨⟨_, hqb⟩, ?_⟩
        rintro k ⟨x, hx⟩
        obtain ⟨e1, e2, e3⟩ := h03 k
        by_cases hu : HasCp u.chain k
        · exact ht.2 k hu
        · by_cases hi : Invalidated cg.chain u.chain k
          · rw [e2 hu hi] at hx; cases hx
          · have := e3 hu hi
            rw [this] at hx; exact hle k ⟨x, hx⟩
      have hpt : IsTip (q.setCheckpointLimit cg.chain.checkpointLimit) b.height :=
        prune_tip (c := { q with checkpointLimit := cg.chain.checkpointLimit }) hl hqt
      obtain ⟨⟨x, hx⟩, hmax⟩ := hpt
      have hx' := hsub _ _ hx
      rw [hqb] at hx'
      cases hx'
      rw [Electrum.latestCheckpoint_eq]
      refine ⟨⟨⟨_, by rw [hcp, hplain1, hpr]; exact hx⟩, ?_⟩, by rw [hcp, hplain1, hpr]; exact hx⟩
      rintro k ⟨y, hy⟩
      rw [hcp, hplain1, hpr] at hy
      exact hmax k ⟨y, hy⟩

end Verif.Sync
