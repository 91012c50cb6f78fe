import Verif.Lemmas.KeychainIndex
import Mathlib.Data.List.Nodup

namespace Verif.KeychainIndex
open Verif Verif.Spec SpkIndex
variable {K D : Type} [LinearOrder K] [DescriptorOps D]

/-- the storing loop over a derived range, on a contiguous keychain -/
theorem store_range {x x' : SpkIndex (K ×ₗ Nat)} {k : K} {d : D} {n f a m : Nat} (hx : HistInv x) (hd : Derivable d)
    (h1 : ∀ i, x.spks.get (toLex (k, i)) = if i < n then spkAt d i else none) (hn : n ≤ cap d + 1)
    (hfn : ∀ i, a ≤ i → f ≤ i → n ≤ i) (hgap : a ≤ n ∨ cap d + 1 ≤ n)
    (hf : f ≤ n)
    (h : storeSpks x k f (rangeDescriptorSpks d (List.range' a m)) = some x') :
    HistInv x' ∧ x'.txouts = x.txouts ∧ x'.spkTxouts = x.spkTxouts ∧
    (∀ k' i, k' ≠ k → x'.spks.get (toLex (k', i)) = x.spks.get (toLex (k', i))) ∧
    (∀ i, x'.spks.get (toLex (k, i)) = if i < max n (min (a + m) (cap d + 1)) then spkAt d i else none) ∧
    (∀ k' i, x'.unused.mem (toLex (k', i)) = true ↔ x.unused.mem (toLex (k', i)) = true ∨
      (k' = k ∧ n ≤ i ∧ i < max n (min (a + m) (cap d + 1)))) := by
  rw [derive_range d hd] at h
  have hfst : ((List.range' a (min m (cap d + 1 - a))).map (fun i => (i, (spkAt d i).getD 0))).map Prod.fst =
      List.range' a (min m (cap d + 1 - a)) := by
    rw [List.map_map]
    conv_rhs => rw [← List.map_id (List.range' a (min m (cap d + 1 - a)))]
    rfl
  obtain ⟨a1, a2, a3, a4, a5⟩ := storeSpks_spec h hx (by rw [hfst]; exact List.nodup_range') (by
    intro e he hfe
    obtain ⟨i, hi, rfl⟩ := List.mem_map.1 he
    have hi' := List.mem_range'_1.1 hi
    have := hfn i hi'.1 hfe
    rw [h1, if_neg (by omega)])
  refine ⟨a1, a2, a3, ?_, ?_, ?_⟩
  · intro k' i hk
    rw [a4, if_neg (by tauto)]
  · intro i
    rw [a4, rawGet_range (fun i => (spkAt d i).getD 0), h1]
    by_cases hfi : f ≤ i
    · rw [if_pos ⟨rfl, hfi⟩]
      by_cases hr : a ≤ i ∧ i < a + min m (cap d + 1 - a)
      · rw [if_pos hr, Option.some_or, if_pos (by omega)]
        obtain ⟨sp, hsp⟩ := Option.ne_none_iff_exists'.1 (hd i (by omega))
        rw [hsp]; rfl
      · rw [if_neg hr, Option.none_or]
        by_cases hin : i < n
        · rw [if_pos hin, if_pos (by omega)]
        · rw [if_neg hin, if_neg (by omega)]
    · rw [if_neg (by tauto), if_pos (by omega), if_pos (by omega)]
  · intro k' i
    rw [a5]
    apply or_congr Iff.rfl
    rw [rawGet_range (fun i => (spkAt d i).getD 0)]
    constructor
    · rintro ⟨b1, b2, b3⟩
      split_ifs at b3 with hr
      · exact ⟨b1, hfn i hr.1 b2, by omega⟩
      · cases b3
    · rintro ⟨b1, b2, b3⟩
      refine ⟨b1, by omega, ?_⟩
      rw [if_pos (by omega)]; rfl

/-- the storing loop over a derived range does not panic when scripts do not collide -/
theorem store_range_ok {x : SpkIndex (K ×ₗ Nat)} {k : K} {d : D} {f a m : Nat} (hd : Derivable d)
    (hinj : ∀ i j spk, i ≤ cap d → j ≤ cap d → spkAt d i = some spk → spkAt d j = some spk → i = j)
    (hnew : ∀ i spk, a ≤ i → f ≤ i → i ≤ cap d → spkAt d i = some spk → x.spkIndices.get spk = none) :
    ∃ x', storeSpks x k f (rangeDescriptorSpks d (List.range' a m)) = some x' := by
  rw [derive_range d hd]
  apply storeSpks_ok
  · rw [List.map_map]
    apply List.Nodup.map_on _ List.nodup_range'
    intro i hi j hj hij
    have hi' := List.mem_range'_1.1 hi
    have hj' := List.mem_range'_1.1 hj
    obtain ⟨si, hsi⟩ := Option.ne_none_iff_exists'.1 (hd i (by omega))
    obtain ⟨sj, hsj⟩ := Option.ne_none_iff_exists'.1 (hd j (by omega))
    simp only [Function.comp, hsi, hsj, Option.getD] at hij
    subst hij
    exact hinj i j si (by omega) (by omega) hsi hsj
  · intro e he hfe
    obtain ⟨i, hi, rfl⟩ := List.mem_map.1 he
    have hi' := List.mem_range'_1.1 hi
    obtain ⟨si, hsi⟩ := Option.ne_none_iff_exists'.1 (hd i (by omega))
    have := hnew i si hi'.1 hfe (by omega) hsi
    rw [hsi]; exact this

/-- scripts not yet stored are not in the reverse lookup -/
theorem new_spk_free {s : KeychainIndex K D} (hi : Inv s) (hnc : NoCollision s) {k : K} {d : D} {i : Nat} {spk : Script}
    (hk : s.keychains.get k = some d) (hic : i ≤ cap d) (hs : spkAt d i = some spk)
    (hfree : s.inner.spks.get (toLex (k, i)) = none) : s.inner.spkIndices.get spk = none := by
  cases hg : s.inner.spkIndices.get spk with
  | none => rfl
  | some key =>
    exfalso
    have hk2 := (hi.hist.spk_iff key spk).2 hg
    obtain ⟨k', j⟩ : K × Nat := ofLex key
    have hkey : key = toLex ((ofLex key).1, (ofLex key).2) := rfl
    rw [hkey] at hk2
    cases hkc : s.keychains.get (ofLex key).1 with
    | none => rw [(hi.absent _ hkc).1] at hk2; cases hk2
    | some d' =>
      obtain ⟨n, hn1, hn2, -⟩ := hi.contig _ d' hkc
      rw [hn1] at hk2
      split_ifs at hk2 with hlt
      obtain ⟨rfl, rfl⟩ := hnc k d i _ d' _ spk hk hkc hic (by omega) hs hk2
      rw [← hkey, (hi.hist.spk_iff key spk).2 hg] at hfree; cases hfree

/-! ## replenish -/

theorem replenish_spec {s s' : KeychainIndex K D} {k : K} (h : s.replenishLookahead k = some s') :
    ∃ d x', s.keychains.get k = some d ∧ numRevealed s k + s.lookaheadOf k ≤ u32Max ∧
      storeSpks s.inner k 0 (rangeDescriptorSpks d (rangeEx (s.nextStoreIndex k) (numRevealed s k + s.lookaheadOf k))) = some x' ∧
      s' = { s with inner := x' } := by
  unfold replenishLookahead at h
  cases hk : s.keychains.get k with
  | none => rw [hk] at h; cases h
  | some d =>
    rw [hk] at h
    cases hn : s.nextRevealIndex k with
    | none => rw [hn] at h; cases h
    | some nr =>
      rw [hn] at h
      have hnr := numRevealed_eq hn
      subst hnr
      cases ha : addU32 (numRevealed s k) (s.lookaheadOf k) with
      | none =>
        change (addU32 (numRevealed s k) (s.lookaheadOf k)).bind _ = _ at h
        rw [ha] at h; cases h
      | some st =>
        obtain ⟨rfl, hle⟩ := addU32_eq ha
        change (addU32 (numRevealed s k) (s.lookaheadOf k)).bind _ = _ at h
        rw [ha] at h
        change (storeSpks s.inner k 0 _).bind _ = _ at h
        cases hst : storeSpks s.inner k 0 (rangeDescriptorSpks d (rangeEx (s.nextStoreIndex k) (numRevealed s k + s.lookaheadOf k))) with
        | none => rw [hst] at h; cases h
        | some x' =>
          rw [hst] at h
          exact ⟨d, x', rfl, hle, hst, (Option.some.inj h).symm⟩

/-- what only concerns the part of the invariant `replenish_lookahead` needs: the coverage clause may fail for `k` -/
theorem replenish_inv {s s' : KeychainIndex K D} {k : K} (h : s.replenishLookahead k = some s')
    (hist : HistInv s.inner)
    (habs : ∀ k', k' ≠ k → s.keychains.get k' = none →
      (∀ i, s.inner.spks.get (toLex (k', i)) = none) ∧ s.lastRevealed.get k' = none ∧ s.lookahead.get k' = none)
    (hcon : ∀ k' d, k' ≠ k → s.keychains.get k' = some d → ∃ n, Contig s k' d n)
    (hnw : ∀ k d i, s.keychains.get k = some d → hasWildcard d = false → s.lastRevealed.get k = some i → i = 0)
    (d : D) (hkd : s.keychains.get k = some d) (hd : Derivable d) (n : Nat)
    (hn1 : ∀ i, s.inner.spks.get (toLex (k, i)) = if i < n then spkAt d i else none) (hn2 : n ≤ cap d + 1)
    (hsn : s.nextStoreIndex k = n) :
    Inv s' ∧ s'.keychains = s.keychains ∧ s'.lastRevealed = s.lastRevealed ∧ s'.lookahead = s.lookahead ∧
    Contig s' k d (max n (min (numRevealed s k + s.lookaheadOf k) (cap d + 1))) ∧
    s'.inner.txouts = s.inner.txouts ∧ s'.inner.spkTxouts = s.inner.spkTxouts := by
  obtain ⟨d', x', hk, -, hst, rfl⟩ := replenish_spec h
  rw [hkd] at hk; cases hk
  rw [hsn] at hst
  obtain ⟨a1, a2, a3, a4, a5, a6⟩ := store_range (a := n) (m := numRevealed s k + s.lookaheadOf k - n) hist hd hn1 hn2 (by omega) (Or.inl (le_refl _))
    (Nat.zero_le _) hst
  have hmax : max n (min (n + (numRevealed s k + s.lookaheadOf k - n)) (cap d + 1)) =
      max n (min (numRevealed s k + s.lookaheadOf k) (cap d + 1)) := by omega
  rw [hmax] at a5
  have hc : Contig { s with inner := x' } k d (max n (min (numRevealed s k + s.lookaheadOf k) (cap d + 1))) := by
    refine ⟨a5, by omega, ?_⟩
    show min (numRevealed s k + s.lookaheadOf k) (cap d + 1) ≤ _
    omega
  refine ⟨⟨a1, ?_, ?_, hnw⟩, rfl, rfl, rfl, hc, a2, a3⟩
  · intro k' hk'
    have hne : k' ≠ k := by rintro rfl; rw [hkd] at hk'; cases hk'
    refine ⟨fun i => ?_, (habs k' hne hk').2⟩
    show x'.spks.get _ = none
    rw [a4 k' i hne]; exact (habs k' hne hk').1 i
  · intro k' dd hk'
    by_cases hkk : k' = k
    · subst hkk
      have : d = dd := by rw [hkd] at hk'; exact Option.some.inj hk'
      subst this
      exact ⟨_, hc⟩
    · obtain ⟨m, hm1, hm2, hm3⟩ := hcon k' dd hkk hk'
      refine ⟨m, ?_, hm2, hm3⟩
      intro i
      show x'.spks.get _ = _
      rw [a4 k' i hkk]; exact hm1 i

theorem setLookahead_inv {s s' : KeychainIndex K D} {k : K} {la : Nat} (h : s.setLookahead k la = some s') (hi : Inv s)
    (hd : AllDerivable s) :
    ∃ d n, s.keychains.get k = some d ∧ Contig s k d n ∧ Inv s' ∧ s'.keychains = s.keychains ∧ s'.lastRevealed = s.lastRevealed ∧
      s'.lookahead = s.lookahead.insert k la ∧ Contig s' k d (max n (min (numRevealed s k + la) (cap d + 1))) ∧
      s'.inner.txouts = s.inner.txouts ∧ s'.inner.spkTxouts = s.inner.spkTxouts := by
  unfold setLookahead at h
  have hk : ∃ d, s.keychains.get k = some d := by
    obtain ⟨d, -, hk, -⟩ := replenish_spec h; exact ⟨d, hk⟩
  obtain ⟨d, hk⟩ := hk
  obtain ⟨n, hc⟩ := hi.contig k d hk
  have hla : ({ s with lookahead := s.lookahead.insert k la } : KeychainIndex K D).lookaheadOf k = la := by
    show ((s.lookahead.insert k la).get k).getD 0 = la
    rw [OMap.get_insert_self]; rfl
  obtain ⟨b1, b2, b3, b4, b5, b6, b7⟩ := replenish_inv h hi.hist (by
      intro k' hne hk'
      refine ⟨(hi.absent k' hk').1, (hi.absent k' hk').2.1, ?_⟩
      show (s.lookahead.insert k la).get k' = none
      rw [OMap.get_insert, if_neg hne]; exact (hi.absent k' hk').2.2) (by
      intro k' d' hne hk'
      obtain ⟨m, hm1, hm2, hm3⟩ := hi.contig k' d' hk'
      refine ⟨m, hm1, hm2, ?_⟩
      have : ({ s with lookahead := s.lookahead.insert k la } : KeychainIndex K D).lookaheadOf k' = s.lookaheadOf k' := by
        show ((s.lookahead.insert k la).get k').getD 0 = _
        rw [OMap.get_insert, if_neg hne]; rfl
      rw [this]; exact hm3) hi.nw d hk (hd k d hk) n hc.1 hc.2.1 (by
      show s.nextStoreIndex k = n
      exact nextStoreIndex_eq hc (hd k d hk))
  rw [hla] at b5
  exact ⟨d, n, hk, hc, b1, b2, b3, b4, b5, b6, b7⟩

/-! ## reveal -/

/-- the index revealed by `reveal_to_target`, if any -/
def newRevealed (s : KeychainIndex K D) (k : K) (d : D) (target : Nat) : Option Nat :=
  let t := if hasWildcard d then target else 0
  let nr := numRevealed s k
  let la := s.lookaheadOf k
  if t < nr then none
  else if t < nr + la then some t
  else if nr + la ≤ cap d then some (min t (cap d))
  else none

theorem reveal_spec {s : KeychainIndex K D} {k : K} {target : Nat} {r} (h : s.revealToTarget k target = some r) :
    ∃ d x', s.keychains.get k = some d ∧ numRevealed s k + s.lookaheadOf k ≤ u32Max ∧
      (if hasWildcard d then target else 0) + s.lookaheadOf k ≤ u32Max ∧
      storeSpks s.inner k (s.nextStoreIndex k) (rangeDescriptorSpks d (rangeIn (numRevealed s k + s.lookaheadOf k)
        ((if hasWildcard d then target else 0) + s.lookaheadOf k))) = some x' ∧
      ((∃ i, revealedIndex (numRevealed s k) (s.lookaheadOf k) (if hasWildcard d then target else 0)
          (rangeDescriptorSpks d (rangeIn (numRevealed s k + s.lookaheadOf k)
          ((if hasWildcard d then target else 0) + s.lookaheadOf k))) = some i ∧
        i + 1 ≤ u32Max ∧ (∀ old, s.lastRevealed.get k = some old → old < i) ∧
        r = ({ s with inner := x', lastRevealed := s.lastRevealed.insert k i },
          rangeDescriptorSpks d (rangeEx (numRevealed s k) (i + 1)), OMap.empty.insert k i)) ∨
      (revealedIndex (numRevealed s k) (s.lookaheadOf k) (if hasWildcard d then target else 0)
          (rangeDescriptorSpks d (rangeIn (numRevealed s k + s.lookaheadOf k)
          ((if hasWildcard d then target else 0) + s.lookaheadOf k))) = none ∧
        r = ({ s with inner := x' }, [], OMap.empty))) := by
  unfold revealToTarget at h
  cases hk : s.keychains.get k with
  | none => rw [hk] at h; cases h
  | some d =>
    rw [hk] at h
    change (s.nextRevealIndex k).bind _ = _ at h
    cases hn : s.nextRevealIndex k with
    | none => rw [hn] at h; cases h
    | some nr =>
      rw [hn] at h
      have hnr := numRevealed_eq hn
      subst hnr
      change (addU32 (numRevealed s k) (s.lookaheadOf k)).bind _ = _ at h
      cases ha : addU32 (numRevealed s k) (s.lookaheadOf k) with
      | none => rw [ha] at h; cases h
      | some st =>
        obtain ⟨rfl, hle⟩ := addU32_eq ha
        rw [ha] at h
        change (addU32 (if hasWildcard d then target else 0) (s.lookaheadOf k)).bind _ = _ at h
        cases hb : addU32 (if hasWildcard d then target else 0) (s.lookaheadOf k) with
        | none => rw [hb] at h; cases h
        | some st2 =>
          obtain ⟨rfl, hle2⟩ := addU32_eq hb
          rw [hb] at h
          change (storeSpks s.inner k (s.nextStoreIndex k) _).bind _ = _ at h
          cases hst : storeSpks s.inner k (s.nextStoreIndex k) (rangeDescriptorSpks d (rangeIn (numRevealed s k + s.lookaheadOf k)
              ((if hasWildcard d then target else 0) + s.lookaheadOf k))) with
          | none => rw [hst] at h; cases h
          | some x' =>
            rw [hst] at h
            simp only [Option.bind_some] at h
            refine ⟨d, x', rfl, hle, hle2, hst, ?_⟩
            cases hr : revealedIndex (numRevealed s k) (s.lookaheadOf k) (if hasWildcard d then target else 0)
                (rangeDescriptorSpks d (rangeIn (numRevealed s k + s.lookaheadOf k)
                ((if hasWildcard d then target else 0) + s.lookaheadOf k))) with
            | none =>
              rw [hr] at h
              simp only [] at h
              right
              refine ⟨rfl, ?_⟩
              rw [← Option.some.inj h]
              simp [rangeEx, derive_nil]
            | some i =>
              left
              rw [hr] at h
              simp only [] at h
              refine ⟨i, rfl, ?_⟩
              cases hl : s.lastRevealed.get k with
              | none =>
                rw [hl] at h
                simp only [Bool.false_eq_true, if_false] at h
                change (addU32 i 1).bind _ = _ at h
                cases he : addU32 i 1 with
                | none => rw [he] at h; cases h
                | some e =>
                  obtain ⟨rfl, hle3⟩ := addU32_eq he
                  rw [he] at h
                  exact ⟨hle3, by simp, (Option.some.inj h).symm⟩
              | some old =>
                rw [hl] at h
                by_cases ho : i ≤ old
                · simp only [decide_eq_true ho, if_true] at h; cases h
                · simp only [decide_eq_false ho, Bool.false_eq_true, if_false] at h
                  change (addU32 i 1).bind _ = _ at h
                  cases he : addU32 i 1 with
                  | none => rw [he] at h; cases h
                  | some e =>
                    obtain ⟨rfl, hle3⟩ := addU32_eq he
                    rw [he] at h
                    exact ⟨hle3, by intro o2 h2; cases h2; omega, (Option.some.inj h).symm⟩

/-- the value of `revealed_index` -/
theorem revealedIndex_eq (s : KeychainIndex K D) (k : K) (d : D) (hd : Derivable d) (target : Nat) :
    revealedIndex (numRevealed s k) (s.lookaheadOf k) (if hasWildcard d then target else 0)
          (rangeDescriptorSpks d (rangeIn (numRevealed s k + s.lookaheadOf k)
          ((if hasWildcard d then target else 0) + s.lookaheadOf k))) = newRevealed s k d target := by
  unfold rangeIn
  rw [derive_range d hd, revealedIndex_range _ _ _ _ _ (fun i => (spkAt d i).getD 0)]
  unfold newRevealed
  simp only []
  generalize (if hasWildcard d then target else 0) = t
  generalize numRevealed s k = nr
  generalize s.lookaheadOf k = la
  by_cases h1 : t < nr
  · rw [if_pos h1, if_neg (by omega), if_neg (by omega)]
  · rw [if_neg h1]
    by_cases h2 : t < nr + la
    · rw [if_pos h2, if_neg (by omega), if_pos (by omega)]
    · rw [if_neg h2]
      by_cases h3 : nr + la ≤ cap d
      · rw [if_pos h3, if_pos (by omega)]
        congr 1; omega
      · rw [if_neg h3, if_neg (by omega), if_neg (by omega)]

theorem newRevealed_bounds {s : KeychainIndex K D} {k : K} {d : D} {target i : Nat} (h : newRevealed s k d target = some i) :
    numRevealed s k ≤ i ∧ i ≤ (if hasWildcard d then target else 0) := by
  unfold newRevealed at h
  simp only [] at h
  generalize (if hasWildcard d then target else 0) = t at *
  split_ifs at h
  all_goals (have := Option.some.inj h; omega)

/-- what `reveal_to_target` does -/
theorem reveal_main {s : KeychainIndex K D} {k : K} {target : Nat} {r} (h : s.revealToTarget k target = some r) (hi : Inv s)
    (hd : AllDerivable s) :
    ∃ d n n', s.keychains.get k = some d ∧ Contig s k d n ∧ n ≤ n' ∧ Contig r.1 k d n' ∧ Inv r.1 ∧ r.1.keychains = s.keychains ∧
      r.1.lookahead = s.lookahead ∧ r.1.inner.txouts = s.inner.txouts ∧ r.1.inner.spkTxouts = s.inner.spkTxouts ∧
      (∀ k' i, r.1.inner.unused.mem (toLex (k', i)) = true ↔ s.inner.unused.mem (toLex (k', i)) = true ∨ (k' = k ∧ n ≤ i ∧ i < n')) ∧
      (∀ k' i, k' ≠ k → r.1.inner.spks.get (toLex (k', i)) = s.inner.spks.get (toLex (k', i))) ∧
      (match newRevealed s k d target with
        | some i => r.1.lastRevealed = s.lastRevealed.insert k i ∧ r.2.2 = OMap.empty.insert k i ∧ numRevealed s k ≤ i ∧
            r.2.1 = rangeDescriptorSpks d (rangeEx (numRevealed s k) (i + 1))
        | none => r.1.lastRevealed = s.lastRevealed ∧ r.2.2 = OMap.empty ∧ r.2.1 = []) := by
  obtain ⟨d, x', hk, hle, hle2, hst, hcase⟩ := reveal_spec h
  have hdd := hd k d hk
  obtain ⟨n, hc⟩ := hi.contig k d hk
  obtain ⟨hn1, hn2, hn3⟩ := hc
  rw [nextStoreIndex_eq ⟨hn1, hn2, hn3⟩ hdd] at hst
  simp only [revealedIndex_eq s k d hdd] at hcase
  unfold rangeIn at hst
  obtain ⟨a1, a2, a3, a4, a5, a6⟩ := store_range hi.hist hdd hn1 hn2 (by intro i _ h; exact h) (by omega) (le_refl _) hst
  have hnr : ∀ i, newRevealed s k d target = some i → numRevealed s k ≤ i ∧ i ≤ (if hasWildcard d then target else 0) :=
    fun i h => newRevealed_bounds h
  obtain ⟨t, htt⟩ : ∃ t, t = (if hasWildcard d then target else 0) := ⟨_, rfl⟩
  rw [← htt] at hnr a5 a6
  obtain ⟨n', hn'⟩ : ∃ n', n' = max n (min (numRevealed s k + s.lookaheadOf k + (t + s.lookaheadOf k + 1 - (numRevealed s k + s.lookaheadOf k))) (cap d + 1)) := ⟨_, rfl⟩
  rw [← hn'] at a5 a6
  refine ⟨d, n, n', hk, ⟨hn1, hn2, hn3⟩, by omega, ?_⟩
  have main : ∀ lr : OMap K Nat, (∀ k', k' ≠ k → lr.get k' = s.lastRevealed.get k') →
      (∀ v, lr.get k = some v → s.lastRevealed.get k = some v ∨ newRevealed s k d target = some v) →
      (∃ v, lr.get k = some v) ∨ lr.get k = s.lastRevealed.get k →
      Contig { s with inner := x', lastRevealed := lr } k d n' ∧
      Inv { s with inner := x', lastRevealed := lr } := by
    intro lr hlr1 hlr2 hlr3
    have hcc : Contig { s with inner := x', lastRevealed := lr } k d n' := by
      refine ⟨a5, ?_, ?_⟩
      · omega
      · show min (numRevealed { s with inner := x', lastRevealed := lr } k + s.lookaheadOf k) (cap d + 1) ≤ _
        have hval : numRevealed { s with inner := x', lastRevealed := lr } k = numRevealed s k ∨
            ∃ v, newRevealed s k d target = some v ∧ numRevealed { s with inner := x', lastRevealed := lr } k = v + 1 := by
          unfold numRevealed lastRevealedIndex
          simp only []
          cases hl : lr.get k with
          | none =>
            left
            rcases hlr3 with ⟨v, hv⟩ | hv
            · rw [hl] at hv; cases hv
            · rw [← hv, hl]
          | some v =>
            rcases hlr2 v hl with h1 | h1
            · left; rw [h1]
            · right; exact ⟨v, h1, rfl⟩
        rcases hval with h1 | ⟨v, h1, h2⟩
        · rw [h1]; omega
        · rw [h2]; have := hnr v h1; omega
    refine ⟨hcc, a1, ?_, ?_, ?_⟩
    · intro k' hk'
      have hne : k' ≠ k := by rintro rfl; rw [hk] at hk'; cases hk'
      have hb := hi.absent k' hk'
      refine ⟨fun i => ?_, ?_, hb.2.2⟩
      · show x'.spks.get _ = none
        rw [a4 k' i hne]; exact hb.1 i
      · show lr.get k' = none
        rw [hlr1 k' hne]; exact hb.2.1
    · intro k' dd hk'
      by_cases hkk : k' = k
      · subst hkk
        have : d = dd := by rw [hk] at hk'; exact Option.some.inj hk'
        subst this
        exact ⟨_, hcc⟩
      · obtain ⟨m, hm1, hm2, hm3⟩ := hi.contig k' dd hk'
        refine ⟨m, ?_, hm2, ?_⟩
        · intro i
          show x'.spks.get _ = _
          rw [a4 k' i hkk]; exact hm1 i
        · have : numRevealed { s with inner := x', lastRevealed := lr } k' = numRevealed s k' := by
            unfold numRevealed lastRevealedIndex
            simp only []
            rw [hlr1 k' hkk]
          rw [this]; exact hm3
    · intro k' dd i hk' hw hl
      have hk'' : s.keychains.get k' = some dd := hk'
      have hl' : lr.get k' = some i := hl
      by_cases hkk : k' = k
      · subst hkk
        have : d = dd := by rw [hk] at hk''; exact Option.some.inj hk''
        subst this
        rcases hlr2 i hl' with h1 | h1
        · exact hi.nw k' d i hk hw h1
        · have := (hnr i h1).2
          rw [htt, hw] at this
          simpa using this
      · rw [hlr1 k' hkk] at hl'
        exact hi.nw k' dd i hk'' hw hl'
  rcases hcase with ⟨i, hr, hi1, hi2, rfl⟩ | ⟨hr, rfl⟩
  · obtain ⟨m1, m2⟩ := main (s.lastRevealed.insert k i) (fun k' hne => by rw [OMap.get_insert, if_neg hne])
      (fun v hv => by rw [OMap.get_insert_self] at hv; cases hv; exact Or.inr hr)
      (Or.inl ⟨i, OMap.get_insert_self _ _ _⟩)
    refine ⟨m1, m2, rfl, rfl, a2, a3, a6, a4, ?_⟩
    rw [hr]
    exact ⟨rfl, rfl, (hnr i hr).1, rfl⟩
  · obtain ⟨m1, m2⟩ := main s.lastRevealed (fun k' hne => rfl) (fun v hv => Or.inl hv) (Or.inr rfl)
    refine ⟨m1, m2, rfl, rfl, a2, a3, a6, a4, ?_⟩
    rw [hr]
    exact ⟨rfl, rfl, rfl⟩

end Verif.KeychainIndex
