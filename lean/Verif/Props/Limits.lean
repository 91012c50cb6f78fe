import Verif.Props.SparseChain
import Mathlib.Data.List.Perm.Subperm
import Mathlib.Data.Nat.Find

/-!
# C03, C06, C09, C13, C14 with a checkpoint limit; C14 and `invalidate_checkpoints`

`Limited c`: the chain has at most as many checkpoints as its limit allows; this holds of every chain that the API can build
(C11_limit_respected).
-/

namespace Verif.Props
open Verif Verif.Spec Verif.SparseChain
variable {P : Type} [LinearOrder P] [ChainPosition P] [LawfulChainPosition P]

theorem unlimited_limited (c : SparseChain P) : Limited (unlimited c) := by intro n hn; cases hn

/-- **C03** with a limit `n`: the update has the effect of C03 and then all but the newest `n` blocks are forgotten -/
theorem C03_checkpoints_with_limit (c u c' : SparseChain P) (ho : HashOrder (Txid × P)) (cs : ChangeSet P)
    (hok : HeightsOk c) (hc : PositionsAgree c) (hl : Limited c) (n : Nat) (hn : c.checkpointLimit = some n)
    (h : c.applyUpdate u ho = (c', .ok cs)) : ∃ full : SparseChain P,
    (∀ k, (HasCp u k → full.checkpointAt k = u.checkpointAt k) ∧
      (¬ HasCp u k → Invalidated c u k → full.checkpointAt k = none) ∧
      (¬ HasCp u k → ¬ Invalidated c u k → full.checkpointAt k = c.checkpointAt k)) ∧
    ∀ k, c'.checkpointAt k = if cpsAbove full k < n then full.checkpointAt k else none := by
  have hs := C11_op_then_prune c (.applyUpdate u ho) hl (by intro l hh; cases hh)
  have hd : ∃ c1, (unlimited c).applyUpdate u ho = (c1, .ok cs) := by
    unfold applyUpdate at h ⊢
    rw [determine_unlimited]
    cases hx : c.determineChangeset u ho with
    | error e => rw [hx] at h; cases h
    | ok cs' =>
      rw [hx] at h
      simp only [Prod.mk.injEq, Except.ok.injEq] at h
      exact ⟨_, by rw [h.2]⟩
  obtain ⟨c1, h1⟩ := hd
  refine ⟨c1, C03_checkpoints_after_update (unlimited c) u c1 ho cs hok hc rfl h1, fun k => ?_⟩
  have e : c' = c1.setCheckpointLimit (some n) := by
    have a : c.step (.applyUpdate u ho) = c' := by show (c.applyUpdate u ho).1 = c'; rw [h]
    have b : (unlimited c).step (.applyUpdate u ho) = c1 := by show ((unlimited c).applyUpdate u ho).1 = c1; rw [h1]
    rw [← a, hs, b, hn]
  rw [e]
  exact (C11_set_limit_keeps_newest c1 n).1 k

/-- with a positive limit or none: the blocks after an update are some of those of C03, the highest one among them -/
theorem checkpoints_some_limit (c u c' : SparseChain P) (ho : HashOrder (Txid × P)) (cs : ChangeSet P)
    (hok : HeightsOk c) (hc : PositionsAgree c) (hl : Limited c) (hz : c.checkpointLimit ≠ some 0)
    (h : c.applyUpdate u ho = (c', .ok cs)) : ∃ full : SparseChain P,
    (∀ k, (HasCp u k → full.checkpointAt k = u.checkpointAt k) ∧
      (¬ HasCp u k → Invalidated c u k → full.checkpointAt k = none) ∧
      (¬ HasCp u k → ¬ Invalidated c u k → full.checkpointAt k = c.checkpointAt k)) ∧
    (∀ k b, c'.checkpointAt k = some b → full.checkpointAt k = some b) ∧
    ∀ k, (∀ j, HasCp full j → j ≤ k) → c'.checkpointAt k = full.checkpointAt k := by
  cases hn : c.checkpointLimit with
  | none =>
    exact ⟨c', C03_checkpoints_after_update c u c' ho cs hok hc hn h, fun _ _ h => h, fun _ _ => rfl⟩
  | some n =>
    obtain ⟨full, h1, h2⟩ := C03_checkpoints_with_limit c u c' ho cs hok hc hl n hn h
    refine ⟨full, h1, fun k b hb => ?_, fun k hk => ?_⟩
    · rw [h2] at hb
      split at hb
      · exact hb
      · cases hb
    · have h0 : cpsAbove full k = 0 := by
        unfold cpsAbove
        rw [List.length_eq_zero_iff, List.filter_eq_nil_iff]
        intro x hx
        have := hk x ((hasCp_iff).2 (OMap.mem_keys.1 hx))
        simpa using this
      rw [h2, h0, if_pos]
      rw [hn] at hz
      exact Nat.pos_of_ne_zero fun e => hz (by rw [e])


/-- fewer blocks than the limit: nothing is forgotten -/
theorem limit_keeps_all (c : SparseChain P) (n : Nat) (h : c.checkpoints.size ≤ n) (k : Nat) :
    (c.setCheckpointLimit (some n)).checkpointAt k = c.checkpointAt k := by
  have : (c.setCheckpointLimit (some n)) = { c with checkpointLimit := some n } :=
    prune_of_limited (c := { c with checkpointLimit := some n }) (by intro m hm; cases hm; exact h)
  rw [this]; rfl

theorem size_le_of_sub {a b : SparseChain P} (h : ∀ k, HasCp a k → HasCp b k) : a.checkpoints.size ≤ b.checkpoints.size := by
  have hk : ∀ {c : SparseChain P} {k}, k ∈ c.checkpoints.keys ↔ HasCp c k := by
    intro c k
    rw [OMap.mem_keys, hasCp_iff]
  have hsub : a.checkpoints.keys ⊆ b.checkpoints.keys := fun k hx => hk.2 (h k (hk.1 hx))
  have := (List.subperm_of_subset (OMap.keys_nodup a.checkpoints) hsub).length_le
  simpa [OMap.size, OMap.keys] using this

/-- **C09** with a limit (or without): `invalidate_checkpoints(f)` removes exactly the checkpoints at or above `f`, unconfirms
exactly the transactions confirmed at or above `f`; nothing else changes, no older block is forgotten -/
theorem C09_invalidate_with_limit (c : SparseChain P) (hc : PositionsAgree c) (hl : Limited c) (f : Nat) :
    let c' := (c.invalidateCheckpoints f).1
    (∀ h, c'.checkpointAt h = if h < f then c.checkpointAt h else none) ∧
    (∀ t, c.txPosition t = none → c'.txPosition t = none) ∧
    (∀ t p h, c.txPosition t = some p → ChainPosition.height p = .confirmed h → f ≤ h →
      c'.txPosition t = some (unconfirmedPos P)) ∧
    (∀ t p, c.txPosition t = some p → (∀ h, ChainPosition.height p = .confirmed h → h < f) →
      c'.txPosition t = some p) := by
  intro c'
  have hs : c' = ((unlimited c).invalidateCheckpoints f).1.setCheckpointLimit c.checkpointLimit :=
    C11_op_then_prune c (.invalidateCheckpoints f) hl (by intro l hh; cases hh)
  have h9 := C09_invalidate (unlimited c) hc rfl f
  cases hn : c.checkpointLimit with
  | none => exact C09_invalidate c hc hn f
  | some n =>
    rw [hn] at hs
    have htx : ∀ t, c'.txPosition t = ((unlimited c).invalidateCheckpoints f).1.txPosition t := fun t => by
      rw [hs]; exact (C11_set_limit_keeps_newest _ n).2.1 t
    refine ⟨fun h => ?_, fun t ht => ?_, fun t p h a b d => ?_, fun t p a b => ?_⟩
    · rw [hs, limit_keeps_all]
      · exact h9.1 h
      · refine le_trans (size_le_of_sub (b := c) ?_) (hl n hn)
        rintro k ⟨b, hb⟩
        have e := h9.1 k
        rw [hb] at e
        split at e
        · exact ⟨b, e.symm⟩
        · cases e
    · rw [htx]; exact h9.2.1 t ht
    · rw [htx]; exact h9.2.2.1 t p h a b d
    · rw [htx]; exact h9.2.2.2 t p a b

/-- **C13** with a limit `n`: the new block is kept iff fewer than `n` known blocks are above it, and of the others the newest -/
theorem C13_insert_checkpoint_with_limit (c : SparseChain P) (hok : HeightsOk c) (hc : PositionsAgree c) (hl : Limited c)
    (n : Nat) (hn : c.checkpointLimit = some n) (b : BlockId) (ho : HashOrder (Txid × P)) (h : ¬ TipConflicts c b) :
    ∃ full : SparseChain P, (∀ k, full.checkpointAt k = if k = b.height then some b else c.checkpointAt k) ∧
    let c' := (c.insertCheckpoint b ho).1
    (∀ k, c'.checkpointAt k = if cpsAbove full k < n then full.checkpointAt k else none) ∧
    (∀ t, c'.txPosition t = c.txPosition t) := by
  have h13 := C13_insert_checkpoint_effect (unlimited c) hok hc rfl b ho h
  have hs : (c.insertCheckpoint b ho).1 = ((unlimited c).insertCheckpoint b ho).1.setCheckpointLimit c.checkpointLimit :=
    C11_op_then_prune c (.insertCheckpoint b ho) hl (by intro l hh; cases hh)
  rw [hn] at hs
  refine ⟨((unlimited c).insertCheckpoint b ho).1, h13.1, fun k => ?_, fun t => ?_⟩
  · rw [hs]; exact (C11_set_limit_keeps_newest _ n).1 k
  · rw [hs, (C11_set_limit_keeps_newest _ n).2.1 t]; exact h13.2 t

/-- **C14** what `invalidate_checkpoints(f)` does to it: afterwards no transaction is confirmed above the tip iff no transaction
was confirmed between the highest remaining block (below `f`) and `f`.  So a caller who invalidates from a height `f` directly
above a remaining block keeps the property, and only then in general. -/
theorem C14_invalidate_exact (c : SparseChain P) (hc : PositionsAgree c) (hl : Limited c) (f : Nat) :
    ConfirmedBelowTip (c.invalidateCheckpoints f).1 ↔
      ∀ t p h, c.txPosition t = some p → ChainPosition.height p = .confirmed h → h < f → ∃ b, HasCp c b ∧ h ≤ b ∧ b < f := by
  obtain ⟨h1, h2, h3, h4⟩ := C09_invalidate_with_limit c hc hl f
  have hcp : ∀ k, HasCp (c.invalidateCheckpoints f).1 k ↔ HasCp c k ∧ k < f := by
    intro k
    unfold HasCp
    rw [h1 k]
    by_cases hk : k < f
    · rw [if_pos hk]; exact ⟨fun h => ⟨h, hk⟩, fun h => h.1⟩
    · rw [if_neg hk]; exact ⟨fun ⟨b, h⟩ => (by cases h), fun h => absurd h.2 hk⟩
  constructor
  · intro hb t p h ht hp hlt
    have := h4 t p ht (fun h' hh' => by rw [hp] at hh'; cases hh'; exact hlt)
    obtain ⟨tip, htip, hle⟩ := hb t p h this hp
    obtain ⟨a, b⟩ := (hcp tip).1 htip.1
    exact ⟨tip, a, hle, b⟩
  · intro hall t p h ht hp
    have hpos : c.txPosition t = some p ∧ h < f := by
      cases hold : c.txPosition t with
      | none => rw [h2 t hold] at ht; cases ht
      | some q =>
        by_cases hd : ∃ h', ChainPosition.height q = .confirmed h' ∧ f ≤ h'
        · obtain ⟨h', a, b⟩ := hd
          rw [h3 t q h' hold a b] at ht
          obtain rfl := Option.some.inj ht
          unfold unconfirmedPos at hp
          rw [LawfulChainPosition.height_max] at hp
          cases hp
        · have hall' : ∀ h', ChainPosition.height q = .confirmed h' → h' < f := fun h' hh' => by
            by_contra hx; exact hd ⟨h', hh', by omega⟩
          rw [h4 t q hold hall'] at ht
          obtain rfl := Option.some.inj ht
          exact ⟨rfl, hall' h hp⟩
    obtain ⟨b, hb1, hb2, hb3⟩ := hall t p h hpos.1 hp hpos.2
    obtain ⟨tip, htip⟩ : ∃ tip, IsTip (c.invalidateCheckpoints f).1 tip := by
      have hne : HasCp (c.invalidateCheckpoints f).1 b := (hcp b).2 ⟨hb1, hb3⟩
      obtain ⟨v, hv⟩ := hasCp_iff.1 hne
      cases hlast : (c.invalidateCheckpoints f).1.checkpoints.last? with
      | none =>
        rw [OMap.last?_eq_none.1 hlast] at hv
        cases hv
      | some e => exact ⟨e.1, isTip_last.2 (by rw [hlast]; rfl)⟩
    exact ⟨tip, htip, le_trans hb2 (htip.2 b ((hcp b).2 ⟨hb1, hb3⟩))⟩

theorem cpsAbove_le {a b : SparseChain P} (h : ∀ k, HasCp a k → HasCp b k) (k : Nat) : cpsAbove a k ≤ cpsAbove b k := by
  have hk : ∀ {c : SparseChain P} {k}, k ∈ c.checkpoints.keys ↔ HasCp c k := by
    intro c k
    rw [OMap.mem_keys, hasCp_iff]
  unfold cpsAbove
  refine (List.subperm_of_subset ((OMap.keys_nodup a.checkpoints).filter _) (fun x hx => ?_)).length_le
  obtain ⟨h1, h2⟩ := List.mem_filter.1 hx
  exact List.mem_filter.2 ⟨hk.2 (h x (hk.1 h1)), h2⟩

/-- a known block with at least `n` blocks above it: `n` of them are among the newest `n` -/
theorem newest_above (full keep : SparseChain P) (n k : Nat) (hk : HasCp full k) (hn : n ≤ cpsAbove full k)
    (hkeep : ∀ h, HasCp full h → cpsAbove full h < n → HasCp keep h) : n ≤ cpsAbove keep k := by
  have hd := keys_reverse_desc full.checkpoints
  have hmem : ∀ {c : SparseChain P} {k}, k ∈ c.checkpoints.keys ↔ HasCp c k := by
    intro c k
    rw [OMap.mem_keys, hasCp_iff]
  have hm : k ∈ full.checkpoints.keys.reverse := by rw [List.mem_reverse]; exact hmem.2 hk
  obtain ⟨j, hj⟩ := List.getElem?_of_mem hm
  have hjj : cpsAbove full k = j := by rw [cpsAbove_eq]; exact desc_filter_length hd hj
  have hlen := (List.getElem?_eq_some_iff.1 hj).1
  have hsub : full.checkpoints.keys.reverse.take n ⊆ keep.checkpoints.keys.filter (fun x => decide (k < x)) := by
    intro x hx
    obtain ⟨i, hi⟩ := List.getElem?_of_mem hx
    have hi' : i < n ∧ full.checkpoints.keys.reverse[i]? = some x := by
      rw [List.getElem?_take] at hi
      split at hi
      · next h => exact ⟨h, hi⟩
      · cases hi
    have hxa : cpsAbove full x = i := by rw [cpsAbove_eq]; exact desc_filter_length hd hi'.2
    have hxf : HasCp full x := hmem.1 (List.mem_reverse.1 (List.mem_of_getElem? hi'.2))
    refine List.mem_filter.2 ⟨hmem.2 (hkeep x hxf (by omega)), decide_eq_true ?_⟩
    obtain ⟨a1, a2⟩ := List.getElem?_eq_some_iff.1 hi'.2
    obtain ⟨b1, b2⟩ := List.getElem?_eq_some_iff.1 hj
    have := (List.pairwise_iff_getElem.1 hd) i j a1 b1 (by omega)
    rw [a2, b2] at this
    exact this
  have hnd : (full.checkpoints.keys.reverse.take n).Nodup :=
    (hd.imp (fun h => (ne_of_lt h).symm)).sublist (List.take_sublist _ _)
  have := (List.subperm_of_subset hnd hsub).length_le
  rw [List.length_take] at this
  unfold cpsAbove
  omega

/-- **C06** with a limit `n ≠ 0`: applying the same update again succeeds and leaves the chain unchanged.  Its changeset changes no
transaction, but it need not be empty: it names the update's blocks that were forgotten. -/
theorem C06_update_again_with_limit (c u c' : SparseChain P) (ho ho' : HashOrder (Txid × P)) (cs : ChangeSet P)
    (hok : HeightsOk c) (hu : HeightsOk u) (hc : PositionsAgree c) (hl : Limited c) (n : Nat) (hn : c.checkpointLimit = some n)
    (hn0 : n ≠ 0) (h : c.applyUpdate u ho = (c', .ok cs)) :
    ∃ cs', c'.applyUpdate u ho' = (c', .ok cs') ∧ cs'.txids = OMap.empty ∧
      ∀ k h, cs'.checkpoints.get k = some h ↔ c'.checkpointAt k = none ∧ ∃ x, u.checkpointAt k = some ⟨k, x⟩ ∧ h = some x := by
  have hcon := consistent_of_positionsAgree hc
  obtain ⟨full, hfull, hcp⟩ := C03_checkpoints_with_limit c u c' ho cs hok hc hl n hn h
  have htx := C03_positions_after_update c u c' ho cs hok hc h
  have hc'def : c' = (c.step (.applyUpdate u ho)) := by
    show c' = (c.applyUpdate u ho).1
    rw [h]
  have hok' : HeightsOk c' := by rw [hc'def]; exact step_heightsOk hok hcon _ hu
  have hcon' : Consistent c' := by rw [hc'def]; exact step_consistent c _ hcon
  have hl' : c'.checkpointLimit = some n := by
    have := h
    unfold applyUpdate at this
    split at this
    · cases this
    · simp only [Prod.mk.injEq] at this; rw [← this.1, applyChangeset_limit]; exact hn
  have uf : ∀ k b, u.checkpointAt k = some b → full.checkpointAt k = some b := fun k b hb => by
    rw [(hfull k).1 ⟨b, hb⟩]; exact hb
  -- the update's tip is kept
  have tip_kept : ∀ t, IsTip u t → cpsAbove full t < n := by
    intro t ht
    by_cases hdiv : Diverges c u
    · have hz : cpsAbove full t = 0 := by
        unfold cpsAbove
        rw [List.length_eq_zero_iff, List.filter_eq_nil_iff]
        intro x hx hlt
        have hlt' : t < x := of_decide_eq_true hlt
        have hxf : HasCp full x := hasCp_iff.2 (OMap.mem_keys.1 hx)
        have hxu : ¬ HasCp u x := fun hh => by have := ht.2 x hh; omega
        obtain ⟨t', ht', hna⟩ := hdiv
        have ett : t' = t := le_antisymm (ht.2 t' ht'.1) (ht'.2 t ht.1)
        subst ett
        by_cases hxi : Invalidated c u x
        · obtain ⟨b, hb⟩ := hxf
          rw [(hfull x).2.1 hxu hxi] at hb; cases hb
        · obtain ⟨b, hb⟩ := hxf
          rw [(hfull x).2.2 hxu hxi] at hb
          have habove : ∀ y, t' ≤ y → HasCp c y → AboveAgreement c u y := fun y hy _ a ha => by
            obtain ⟨b', h1, h2⟩ := ha
            have hle := ht'.2 a ⟨b', h2⟩
            rcases Nat.lt_or_ge a y with h3 | h3
            · exact h3
            · exfalso
              have : a = t' := by omega
              subst this
              exact hna ⟨b', h1, h2⟩
          have hex : ∃ f, HasCp c f ∧ AboveAgreement c u f := ⟨x, ⟨b, hb⟩, habove x (by omega) ⟨b, hb⟩⟩
          classical
          refine hxi ⟨Nat.find hex, ⟨⟨t', ht', hna⟩, (Nat.find_spec hex).1, (Nat.find_spec hex).2,
            fun f' h1 h2 => Nat.find_min' hex ⟨h1, h2⟩⟩, Nat.find_min' hex ⟨⟨b, hb⟩, habove x (by omega) ⟨b, hb⟩⟩⟩
      omega
    · have hag : Agree c u t := by by_contra hh; exact hdiv ⟨t, ht, hh⟩
      have hle : cpsAbove full t ≤ cpsAbove c t := by
        have hk : ∀ {c : SparseChain P} {k}, k ∈ c.checkpoints.keys ↔ HasCp c k := by
          intro c k
          rw [OMap.mem_keys, hasCp_iff]
        unfold cpsAbove
        refine (List.subperm_of_subset ((OMap.keys_nodup full.checkpoints).filter _) (fun x hx => ?_)).length_le
        obtain ⟨h1, h2⟩ := List.mem_filter.1 hx
        have hlt : t < x := of_decide_eq_true h2
        have hxu : ¬ HasCp u x := fun hh => by have := ht.2 x hh; omega
        have hxi : ¬ Invalidated c u x := fun ⟨f, hf, _⟩ => hdiv hf.1
        refine List.mem_filter.2 ⟨hk.2 ?_, h2⟩
        obtain ⟨b, hb⟩ := hk.1 h1
        rw [(hfull x).2.2 hxu hxi] at hb
        exact ⟨b, hb⟩
      obtain ⟨b, hb, -⟩ := hag
      have hmem : t ∈ c.checkpoints.keys := OMap.mem_keys.2 (hasCp_iff.1 ⟨b, hb⟩)
      have hlt : cpsAbove c t < c.checkpoints.size := by
        have : cpsAbove c t < c.checkpoints.keys.length := by
          unfold cpsAbove
          rw [← List.countP_eq_length_filter]
          refine lt_of_le_of_ne List.countP_le_length (fun e => ?_)
          have := List.countP_eq_length.1 e t hmem
          simp at this
        simpa [OMap.size, OMap.keys] using this
      have := hl n hn
      omega
  have hnd : ¬ Diverges c' u := by
    rintro ⟨t, ht, hna⟩
    obtain ⟨b, hb⟩ := ht.1
    exact hna ⟨b, by rw [hcp t, if_pos (tip_kept t ht)]; exact uf t b hb, hb⟩
  have hinv : ∀ k, ¬ Invalidated c' u k := fun k ⟨f, hf, _⟩ => hnd hf.1
  obtain ⟨cs', hcs'⟩ := (determine_ok_iff (u := u) (ho := ho') hok').2
    ⟨fun f hf => hnd hf.1.1, fun t p q hm => hm.2.2.1 (by
      have := (htx t).1 q hm.2.1; rw [hm.1] at this; cases this; rfl)⟩
  have h2 : cs'.txids = OMap.empty := OMap.eq_empty_iff.2 (fun t => by
    have hd := determine_ok_tx hok' hcon' hcs' t
    cases ht : u.txidToPos.get t with
    | some q =>
      have hq : c'.txidToPos.get t = some q := (htx t).1 q ht
      rw [hd.1 q ht, if_pos hq]
    | none =>
      cases hp : c'.txidToPos.get t with
      | none => exact hd.2.1 ht hp
      | some p => exact hd.2.2.2 p ht hp (fun ⟨k, _, hk⟩ => hinv k hk))
  -- where the chain still has the update's block, it is the same
  have same : ∀ k v w, u.checkpoints.get k = some v → c'.checkpoints.get k = some w → w = v := by
    intro k v w hv hw
    have h1 := uf k ⟨k, v⟩ (by unfold checkpointAt; rw [hv]; rfl)
    have h3 := hcp k
    rw [h1] at h3
    unfold checkpointAt at h3
    rw [hw] at h3
    split at h3
    · simp at h3; exact h3
    · cases h3
  have h1 : ∀ k, cs'.checkpoints.get k = match c'.checkpoints.get k with | some _ => none | none => (u.checkpoints.get k).map some := by
    intro k
    have hd := determine_ok_cp hok' hcs' k
    cases hk : u.checkpoints.get k with
    | none =>
      rw [hd.2.2 hk (hinv k)]
      cases c'.checkpoints.get k <;> rfl
    | some v =>
      rw [hd.1 v hk]
      cases hw : c'.checkpoints.get k with
      | none => rw [if_neg (by simp)]; rfl
      | some w => rw [same k v w hk hw, if_pos rfl]
  have h1' : ∀ k h, cs'.checkpoints.get k = some h ↔ c'.checkpointAt k = none ∧ ∃ x, u.checkpointAt k = some ⟨k, x⟩ ∧ h = some x := by
    intro k h
    rw [h1 k]
    unfold checkpointAt
    cases c'.checkpoints.get k <;> cases u.checkpoints.get k <;> simp [eq_comm]
  refine ⟨cs', ?_, h2, h1'⟩
  unfold applyUpdate
  rw [hcs']
  simp only
  refine Prod.ext ?_ rfl
  show c'.applyChangeset cs' = c'
  have hd' : c'.checkpoints.last? = c'.checkpoints.last? := rfl
  have hstep : c'.applyChangeset cs' = ((unlimited c').applyChangeset cs').setCheckpointLimit c'.checkpointLimit :=
    applyChangeset_unlimited c' _
  rw [hl'] at hstep
  obtain ⟨raw, hraw⟩ : ∃ raw, raw = (unlimited c').applyChangeset cs' := ⟨_, rfl⟩
  rw [← hraw] at hstep
  have rget : ∀ k, raw.checkpoints.get k = overlay cs'.checkpoints c'.checkpoints k := fun k => by
    rw [hraw]; exact applyChangeset_cp (unlimited c') cs' rfl k
  have rc : ∀ k v, c'.checkpoints.get k = some v → raw.checkpoints.get k = some v := by
    intro k v hv
    rw [rget k]; unfold overlay
    rw [h1 k, hv]
  have rf : ∀ k v, raw.checkpoints.get k = some v → full.checkpoints.get k = some v := by
    intro k v hv
    rw [rget k] at hv
    unfold overlay at hv
    rw [h1 k] at hv
    have conv : ∀ {x : SparseChain P} {w}, x.checkpointAt k = some ⟨k, w⟩ → x.checkpoints.get k = some w := by
      intro x w hx
      unfold checkpointAt at hx
      cases hg : x.checkpoints.get k with
      | none => rw [hg] at hx; cases hx
      | some z => rw [hg] at hx; simp at hx; rw [hx]
    cases hcv : c'.checkpoints.get k with
    | none =>
      rw [hcv] at hv
      cases hw : u.checkpoints.get k with
      | none => rw [hw] at hv; cases hv
      | some w =>
        rw [hw] at hv
        simp at hv
        subst hv
        exact conv (uf k ⟨k, w⟩ (by unfold checkpointAt; rw [hw]; rfl))
    | some z =>
      have h3 := hcp k
      unfold checkpointAt at h3
      rw [hcv] at hv
      simp at hv
      rw [hcv, hv] at h3
      split at h3
      · apply conv
        unfold checkpointAt
        exact h3.symm
      · cases h3
  apply ext_of_consistent (applyChangeset_consistent _ _ hcon') hcon'
  · intro k
    have hset := (C11_set_limit_keeps_newest raw n).1 k
    rw [← hstep] at hset
    have goal : (c'.applyChangeset cs').checkpointAt k = c'.checkpointAt k := by
      rw [hset]
      have sub : ∀ x, HasCp raw x → HasCp full x := fun x hx => by
        obtain ⟨v, hv⟩ := hasCp_iff.1 hx
        exact hasCp_iff.2 ⟨v, rf x v hv⟩
      cases hv : c'.checkpoints.get k with
      | some v =>
        have e1 : c'.checkpointAt k = some ⟨k, v⟩ := by unfold checkpointAt; rw [hv]; rfl
        have e2 : raw.checkpointAt k = some ⟨k, v⟩ := by unfold checkpointAt; rw [rc k v hv]; rfl
        have e3 : cpsAbove full k < n := by
          have h3 := hcp k
          rw [e1] at h3
          by_contra hh
          rw [if_neg hh] at h3; cases h3
        rw [if_pos (lt_of_le_of_lt (cpsAbove_le sub k) e3), e1, e2]
      | none =>
        have e1 : c'.checkpointAt k = none := by unfold checkpointAt; rw [hv]; rfl
        rw [e1]
        cases hr : raw.checkpoints.get k with
        | none =>
          have : raw.checkpointAt k = none := by unfold checkpointAt; rw [hr]; rfl
          rw [this]; split <;> rfl
        | some v =>
          have e2 : full.checkpointAt k = some ⟨k, v⟩ := by unfold checkpointAt; rw [rf k v hr]; rfl
          have e3 : n ≤ cpsAbove full k := by
            have h3 := hcp k
            rw [e1, e2] at h3
            by_contra hh
            rw [if_pos (by omega)] at h3; cases h3
          have := newest_above full raw n k ⟨_, e2⟩ e3 (fun x hx hlt => by
            obtain ⟨b, hb⟩ := hx
            have h3 := hcp x
            rw [if_pos hlt, hb] at h3
            obtain ⟨w, hw⟩ := hasCp_iff.1 ⟨b, h3⟩
            exact hasCp_iff.2 ⟨w, rc x w hw⟩)
          rw [if_neg (by omega)]
    unfold checkpointAt at goal
    cases h3 : (c'.applyChangeset cs').checkpoints.get k <;> cases h4 : c'.checkpoints.get k <;> rw [h3, h4] at goal <;>
      simp at goal <;> first | rfl | (rw [goal])
  · intro t
    rw [applyChangeset_tx]; unfold overlay; rw [h2]; rfl
  · exact applyChangeset_limit _ _

/-! ## concrete cases -/

/-- `exChain` (blocks 1, 5, 8) with limit 2, and an update with the blocks 1, 8: it is accepted, block 1 is forgotten, and so every
time it is applied it returns a changeset that is not empty -/
example : ∃ (c u : SparseChain TxHeight), ∃ cs, Limited c ∧ c.checkpointLimit = some 2 ∧
    c.applyUpdate u (HashOrder.id _) = (c, .ok cs) ∧ cs.checkpoints.entries = [(1, some 11)] := by
  refine ⟨exChain.setCheckpointLimit (some 2), fromCheckpoints [⟨1, 11⟩, ⟨8, 18⟩], ⟨OMap.ofList [(1, some 11)], OMap.empty⟩,
    prune_limited _, rfl, by decide +kernel, by decide +kernel⟩

/-- `invalidate_checkpoints` right above a remaining block keeps C14 -/
example : ConfirmedBelowTip (exChain.invalidateCheckpoints 6).1 ∧ Limited (exChain.setCheckpointLimit (some 2)) := by
  refine ⟨(C14_invalidate_exact exChain exChain_positionsAgree (by intro n hn; cases hn) 6).2 ?_, prune_limited _⟩
  intro t p h _ _ hlt
  exact ⟨5, ⟨⟨5, 15⟩, by decide⟩, by omega, by omega⟩

/-- **C07** with a limit or without: `a.append(b)` gives the transactions that `a` and then `b` give, at the same positions -/
theorem C07_append_same_transactions (c : SparseChain P) (a b : ChangeSet P) (hc : PositionsAgree c) :
    (∀ t, (c.applyChangeset (a.append b)).txPosition t = ((c.applyChangeset a).applyChangeset b).txPosition t) ∧
    (c.applyChangeset (a.append b)).txids = ((c.applyChangeset a).applyChangeset b).txids := by
  have key : ∀ (c : SparseChain P) (cs : ChangeSet P), (c.applyChangeset cs).txidToPos = ((unlimited c).applyChangeset cs).txidToPos ∧
      (c.applyChangeset cs).orderedTxids = ((unlimited c).applyChangeset cs).orderedTxids := by
    intro c cs
    rw [applyChangeset_unlimited]
    have hp := prune_tx ({ (unlimited c).applyChangeset cs with checkpointLimit := c.checkpointLimit } : SparseChain P)
    exact ⟨hp.1, hp.2.1⟩
  have hseq := C07_append_is_sequential (unlimited c) a b hc rfl
  have htx : ∀ (x y : SparseChain P), x.txidToPos = y.txidToPos → x.orderedTxids = y.orderedTxids → ∀ cs : ChangeSet P,
      ((unlimited x).applyChangeset cs).txidToPos = ((unlimited y).applyChangeset cs).txidToPos ∧
      ((unlimited x).applyChangeset cs).orderedTxids = ((unlimited y).applyChangeset cs).orderedTxids := by
    intro x y h1 h2 cs
    unfold applyChangeset
    simp only []
    rw [(prune_tx _).1, (prune_tx _).1, (prune_tx _).2.1, (prune_tx _).2.1]
    have e1 : (unlimited x).txidToPos = (unlimited y).txidToPos := h1
    have e2 : (unlimited x).orderedTxids = (unlimited y).orderedTxids := h2
    rw [e1, e2]
    exact ⟨rfl, rfl⟩
  have hu : unlimited ((unlimited c).applyChangeset a) = (unlimited c).applyChangeset a := by
    have : ∀ x : SparseChain P, x.checkpointLimit = none → unlimited x = x := by
      intro x h; cases x; simp only at h; subst h; rfl
    exact this _ (by rw [applyChangeset_limit]; rfl)
  have e1 := key c (a.append b)
  have e2 := key (c.applyChangeset a) b
  have e3 := htx _ _ (key c a).1 (key c a).2 b
  rw [hu, ← hseq] at e3
  refine ⟨fun t => ?_, ?_⟩
  · unfold txPosition
    rw [e1.1, e2.1, e3.1]
  · unfold SparseChain.txids
    rw [e1.2, e2.2, e3.2]

/-- **C07** with a limit: if the second changeset removes no block, `a.append(b)` is `a` and then `b` (`C07_append_with_limit_fails`
shows the proviso to be needed) -/
theorem C07_append_only_adding (c : SparseChain P) (a b : ChangeSet P) (hc : PositionsAgree c)
    (hb : ∀ h, b.checkpoints.get h ≠ some none) :
    c.applyChangeset (a.append b) = (c.applyChangeset a).applyChangeset b := by
  cases hn : c.checkpointLimit with
  | none => exact C07_append_is_sequential c a b hc hn
  | some n =>
    have hcon := consistent_of_positionsAgree hc
    refine ext_of_consistent (applyChangeset_consistent _ _ hcon) (applyChangeset_consistent _ _ (applyChangeset_consistent _ _ hcon)) ?_
      (C07_append_same_transactions c a b hc).1 (by simp only [applyChangeset_limit])
    have hget : ∀ {x y : SparseChain P} {h}, x.checkpointAt h = y.checkpointAt h → x.checkpoints.get h = y.checkpoints.get h := by
      intro x y h he
      unfold checkpointAt at he
      cases hx : x.checkpoints.get h <;> cases hy : y.checkpoints.get h <;> rw [hx, hy] at he <;> simp_all
    intro k
    refine hget ?_
    -- the chain after `a` without the limit, after both without, and what the limit leaves of the first with `b` added
    generalize hA : (unlimited c).applyChangeset a = A
    have hAl : A.checkpointLimit = none := by rw [← hA, applyChangeset_limit]; rfl
    generalize hF : A.applyChangeset b = F
    have h1 : c.applyChangeset (a.append b) = F.setCheckpointLimit (some n) := by
      rw [applyChangeset_unlimited, C07_append_is_sequential (unlimited c) a b hc rfl, hA, hF, hn]
    have h2 : c.applyChangeset a = A.setCheckpointLimit (some n) := by
      rw [applyChangeset_unlimited, hA, hn]
    have h3 : (c.applyChangeset a).applyChangeset b = ((unlimited (c.applyChangeset a)).applyChangeset b).setCheckpointLimit (some n) := by
      rw [applyChangeset_unlimited, applyChangeset_limit, hn]
    generalize hG : (unlimited (c.applyChangeset a)).applyChangeset b = G at h3
    have hFo : ∀ h, F.checkpoints.get h = overlay b.checkpoints A.checkpoints h := by
      intro h; rw [← hF]; exact applyChangeset_cp A b hAl h
    have hGo : ∀ h, G.checkpoints.get h = overlay b.checkpoints (c.applyChangeset a).checkpoints h := by
      intro h; rw [← hG]; exact applyChangeset_cp (unlimited (c.applyChangeset a)) b rfl h
    have hpr : ∀ h, (c.applyChangeset a).checkpointAt h = if cpsAbove A h < n then A.checkpointAt h else none := by
      intro h; rw [h2]; exact (C11_set_limit_keeps_newest A n).1 h
    have hAF : ∀ h, HasCp A h → HasCp F h := by
      intro h hh
      rw [hasCp_iff] at hh ⊢
      rw [hFo]; unfold overlay
      cases hg : b.checkpoints.get h with
      | none => exact hh
      | some o =>
        cases o with
        | none => exact absurd hg (hb h)
        | some x => simp
    have hcase : ∀ h, G.checkpointAt h = F.checkpointAt h ∨ (b.checkpoints.get h = none ∧ G.checkpointAt h = none ∧ n ≤ cpsAbove A h) := by
      intro h
      cases hg : b.checkpoints.get h with
      | some o =>
        left; unfold checkpointAt
        rw [hGo, hFo]; unfold overlay; rw [hg]
      | none =>
        have e1 : F.checkpointAt h = A.checkpointAt h := by
          unfold checkpointAt; rw [hFo]; unfold overlay; rw [hg]
        have e2 : G.checkpointAt h = (c.applyChangeset a).checkpointAt h := by
          unfold checkpointAt; rw [hGo]; unfold overlay; rw [hg]
        rw [e1, e2, hpr]
        by_cases hlt : cpsAbove A h < n
        · left; rw [if_pos hlt]
        · right; rw [if_neg hlt]; exact ⟨rfl, rfl, by omega⟩
    have hGF : ∀ h, HasCp G h → HasCp F h := by
      rintro h ⟨x, hx⟩
      rcases hcase h with e | ⟨-, e, -⟩
      · exact ⟨x, by rw [← e]; exact hx⟩
      · rw [e] at hx; cases hx
    have hkeep : ∀ h, HasCp F h → cpsAbove F h < n → HasCp G h := by
      rintro h ⟨x, hx⟩ hlt
      rcases hcase h with e | ⟨-, -, e⟩
      · exact ⟨x, by rw [e]; exact hx⟩
      · have := cpsAbove_le hAF h; omega
    rw [h1, h3, (C11_set_limit_keeps_newest F n).1, (C11_set_limit_keeps_newest G n).1]
    have hle := cpsAbove_le hGF k
    by_cases hF' : cpsAbove F k < n
    · rw [if_pos hF', if_pos (by omega)]
      rcases hcase k with e | ⟨-, -, e⟩
      · exact e.symm
      · have := cpsAbove_le hAF k; omega
    · rw [if_neg hF']
      by_cases hG' : cpsAbove G k < n
      · rw [if_pos hG']
        cases hx : G.checkpointAt k with
        | none => rfl
        | some x =>
          have := newest_above F G n k (hGF k ⟨x, hx⟩) (by omega) hkeep
          omega
      · rw [if_neg hG']

/-- **C07** for any number of changesets that remove no block, on any chain the API can build -/
theorem C07_append_all_only_adding (c : SparseChain P) (l : List (ChangeSet P)) (hc : PositionsAgree c) (hl : Limited c)
    (hb : ∀ b ∈ l, ∀ h, b.checkpoints.get h ≠ some none) :
    c.applyChangeset (l.foldl ChangeSet.append ChangeSet.empty) = l.foldl applyChangeset c := by
  have gen : ∀ (l : List (ChangeSet P)) (a : ChangeSet P), (∀ b ∈ l, ∀ h, b.checkpoints.get h ≠ some none) →
      c.applyChangeset (l.foldl ChangeSet.append a) = l.foldl applyChangeset (c.applyChangeset a) := by
    intro l
    induction l with
    | nil => intro a _; rfl
    | cons x l ih =>
      intro a hb
      simp only [List.foldl_cons]
      rw [ih _ (fun b hb' => hb b (List.mem_cons_of_mem _ hb')), C07_append_only_adding c a x hc (hb x (List.mem_cons_self ..))]
  rw [gen l _ hb, applyChangeset_empty hl]

/-- a limited chain and two changesets that add blocks; the aggregate forgets as many old blocks as the two one after the other -/
example : (let c := exChain.setCheckpointLimit (some 2)
    let a : ChangeSet TxHeight := ⟨OMap.empty.insert 9 (some 19), OMap.empty.insert 7 none⟩
    let b : ChangeSet TxHeight := ⟨OMap.empty.insert 6 (some 16), OMap.empty⟩
    (c.applyChangeset (a.append b)).checkpoints.entries = [(8, 18), (9, 19)] ∧
    (c.applyChangeset (a.append b)).checkpoints.entries = ((c.applyChangeset a).applyChangeset b).checkpoints.entries) := by decide

end Verif.Props
