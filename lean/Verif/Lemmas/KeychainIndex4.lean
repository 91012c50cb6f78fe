import Verif.Lemmas.KeychainIndex3

/-!
# `KeychainTxOutIndex`: calls that do not panic, exact results, unused scripts, bounds
-/

namespace Verif
namespace KeychainIndex
open Spec
variable {K D : Type} [LinearOrder K] [DescriptorOps D]

theorem nextReveal_ok (s : KeychainIndex K D) (k : K) (h : numRevealed s k ≤ u32Max) :
    s.nextRevealIndex k = some (numRevealed s k) := by
  unfold nextRevealIndex numRevealed lastRevealedIndex at *
  cases hl : s.lastRevealed.get k with
  | none => rfl
  | some v =>
    rw [hl] at h
    exact addU32_ok h

theorem inj_of_noCollision {s : KeychainIndex K D} (hnc : NoCollision s) {k : K} {d : D} (hk : s.keychains.get k = some d) :
    ∀ i j spk, i ≤ cap d → j ≤ cap d → spkAt d i = some spk → spkAt d j = some spk → i = j :=
  fun i j spk hi hj h1 h2 => (hnc k d i k d j spk hk hk hi hj h1 h2).2

/-- `reveal_to_target` does not panic -/
theorem reveal_ok {s : KeychainIndex K D} (hi : Inv s) (hd : AllDerivable s) (hnc : NoCollision s) {k : K} {d : D} {t : Nat}
    (hk : s.keychains.get k = some d) (h1 : numRevealed s k + s.lookaheadOf k ≤ u32Max) (h2 : t + s.lookaheadOf k ≤ u32Max)
    (h3 : t < u32Max) : ∃ r, s.revealToTarget k t = some r := by
  have hdd := hd k d hk
  obtain ⟨n, hc⟩ := hi.contig k d hk
  have ht : (if hasWildcard d then t else 0) ≤ t := by split <;> omega
  obtain ⟨x', hx'⟩ := store_range_ok (x := s.inner) (k := k) (f := s.nextStoreIndex k) (a := numRevealed s k + s.lookaheadOf k)
    (m := (if hasWildcard d then t else 0) + s.lookaheadOf k + 1 - (numRevealed s k + s.lookaheadOf k)) hdd
    (inj_of_noCollision hnc hk) (fun i spk _ hf hic hs => new_spk_free hi hnc hk hic hs (by
      rw [nextStoreIndex_eq hc hdd] at hf
      rw [hc.1 i, if_neg (by omega)]))
  have hri := revealedIndex_eq s k d hdd t
  unfold revealToTarget
  rw [hk, nextReveal_ok s k (by omega)]
  simp only [Option.bind_eq_bind, Option.bind_some]
  rw [addU32_ok h1]
  simp only [Option.bind_some]
  rw [addU32_ok (by omega)]
  simp only [Option.bind_some]
  unfold rangeIn at hri ⊢
  rw [hx']
  simp only [Option.bind_some]
  rw [hri]
  cases hn : newRevealed s k d t with
  | none => exact ⟨_, rfl⟩
  | some i =>
    have hb := newRevealed_bounds hn
    simp only []
    cases hl : s.lastRevealed.get k with
    | none =>
      simp only [Bool.false_eq_true, if_false]
      rw [addU32_ok (by omega)]
      exact ⟨_, rfl⟩
    | some old =>
      have : old < i := by
        have h0 : numRevealed s k = old + 1 := by unfold numRevealed lastRevealedIndex; rw [hl]
        omega
      simp only [decide_eq_false (show ¬ i ≤ old by omega), Bool.false_eq_true, if_false]
      rw [addU32_ok (by omega)]
      exact ⟨_, rfl⟩

/-- `set_lookahead` does not panic -/
theorem setLookahead_ok {s : KeychainIndex K D} (hi : Inv s) (hd : AllDerivable s) (hnc : NoCollision s) {k : K} {d : D} {la : Nat}
    (hk : s.keychains.get k = some d) (h1 : numRevealed s k + la ≤ u32Max) : ∃ s', s.setLookahead k la = some s' := by
  have hdd := hd k d hk
  obtain ⟨n, hc⟩ := hi.contig k d hk
  obtain ⟨x', hx'⟩ := store_range_ok (x := s.inner) (k := k) (f := 0) (a := s.nextStoreIndex k)
    (m := numRevealed s k + la - s.nextStoreIndex k) hdd
    (inj_of_noCollision hnc hk) (fun i spk ha _ hic hs => new_spk_free hi hnc hk hic hs (by
      rw [nextStoreIndex_eq hc hdd] at ha
      rw [hc.1 i, if_neg (by omega)]))
  unfold setLookahead replenishLookahead
  simp only [hk, Option.bind_eq_bind, Option.bind_some]
  have e1 : nextRevealIndex { s with lookahead := s.lookahead.insert k la } k = some (numRevealed s k) :=
    nextReveal_ok _ k (show numRevealed s k ≤ u32Max by omega)
  have e2 : lookaheadOf { s with lookahead := s.lookahead.insert k la } k = la := by
    unfold lookaheadOf; rw [OMap.get_insert_self]; rfl
  have e3 : nextStoreIndex { s with lookahead := s.lookahead.insert k la } k = s.nextStoreIndex k := rfl
  rw [e1]
  simp only [Option.bind_some]
  rw [e2, addU32_ok h1]
  simp only [Option.bind_some]
  rw [e3]
  unfold rangeEx
  rw [hx']
  exact ⟨_, rfl⟩

/-- with the target below the bound the new index is `max(old, target)` -/
theorem newRevealed_le {s : KeychainIndex K D} {k : K} {d : D} {t : Nat} (h : (if hasWildcard d then t else 0) ≤ cap d) :
    newRevealed s k d t = if numRevealed s k ≤ (if hasWildcard d then t else 0) then some (if hasWildcard d then t else 0) else none := by
  unfold newRevealed
  simp only []
  generalize (if hasWildcard d then t else 0) = t' at *
  by_cases h1 : t' < numRevealed s k
  · rw [if_pos h1, if_neg (by omega)]
  · have hle : numRevealed s k ≤ t' := by omega
    rw [if_neg h1, if_pos hle]
    by_cases h2 : t' < numRevealed s k + s.lookaheadOf k
    · rw [if_pos h2]
    · rw [if_neg h2, if_pos (by omega), min_eq_left h]

theorem numRevealed_optMax {s s' : KeychainIndex K D} {k : K} {a : Option Nat}
    (h : s'.lastRevealed.get k = optMax (s.lastRevealed.get k) a) :
    numRevealed s' k = max (numRevealed s k) (a.elim 0 (· + 1)) := by
  unfold numRevealed lastRevealedIndex
  rw [h]
  cases s.lastRevealed.get k <;> cases a <;> simp [optMax]

theorem Upd.numRevealed {s s' : KeychainIndex K D} {a : DerivationAdditions K} (h : Upd s s' a) (k : K) :
    Spec.numRevealed s' k = max (Spec.numRevealed s k) ((a.get k).elim 0 (· + 1)) :=
  numRevealed_optMax (by rw [h.lr, DerivationAdditions.get_append])

/-! ## revealing the entries of a map -/

/-- revealing a map whose targets are derivable sets exactly the maxima -/
theorem revealMulti_exact {s : KeychainIndex K D} {m : OMap K Nat} {r} (h : s.revealToTargetMulti m = some r) (hi : Inv s)
    (hd : AllDerivable s) (hm : ∀ k i, m.get k = some i → ∀ d, s.keychains.get k = some d → i ≤ cap d) :
    r.1.lastRevealed = DerivationAdditions.append s.lastRevealed m := by
  have gen : ∀ (l : List (K × Nat)) (s0 : KeychainIndex K D × OMap K (List (Nat × Script)) × DerivationAdditions K) r,
      Inv s0.1 → s0.1.keychains = s.keychains → (l.map Prod.fst).Nodup →
      (∀ e ∈ l, ∀ d, s.keychains.get e.1 = some d → e.2 ≤ cap d) →
      l.foldlM (fun (acc : KeychainIndex K D × OMap K (List (Nat × Script)) × DerivationAdditions K) e => do
        let r ← acc.1.revealToTarget e.1 e.2
        return (r.1, if r.2.2.isEmpty then acc.2 else (acc.2.1.insert e.1 r.2.1, DerivationAdditions.append acc.2.2 r.2.2))) s0 = some r →
      ∀ k, r.1.lastRevealed.get k = optMax (s0.1.lastRevealed.get k) (OMap.rawGet k l) := by
    intro l
    induction l with
    | nil => intro s0 r _ _ _ _ h k; cases h; simp [OMap.rawGet, optMax_none_right]
    | cons e l ih =>
      intro s0 r hi0 hkc hnd hle h k
      rw [List.foldlM_cons] at h
      cases hs : s0.1.revealToTarget e.1 e.2 with
      | none => rw [hs] at h; cases h
      | some r1 =>
        rw [hs] at h
        have hd0 : AllDerivable s0.1 := AllDerivable_congr hkc hd
        obtain ⟨d, n, n', hk, -, -, -, hi1, hkc1, -, -, -, -, -, hlr⟩ := reveal_main hs hi0 hd0
        have hcapE : e.2 ≤ cap d := hle e (List.mem_cons_self ..) d (by rw [← hkc]; exact hk)
        have hlr1 : ∀ k', r1.1.lastRevealed.get k' = optMax (s0.1.lastRevealed.get k') (if k' = e.1 then some e.2 else none) := by
          intro k'
          have ht : (if hasWildcard d then e.2 else 0) = e.2 := by
            by_cases hw : hasWildcard d = true
            · rw [if_pos hw]
            · rw [if_neg hw]
              unfold cap at hcapE
              rw [if_neg hw] at hcapE
              omega
          rw [newRevealed_le (by rw [ht]; exact hcapE), ht] at hlr
          by_cases hle' : Spec.numRevealed s0.1 e.1 ≤ e.2
          · rw [if_pos hle'] at hlr
            rw [hlr.1, OMap.get_insert]
            by_cases hke : k' = e.1
            · subst hke
              rw [if_pos rfl, if_pos rfl]
              unfold Spec.numRevealed lastRevealedIndex at hle'
              cases hg : s0.1.lastRevealed.get e.1 with
              | none => rfl
              | some v => rw [hg] at hle'; simp only [optMax] at hle' ⊢; congr 1; omega
            · rw [if_neg hke, if_neg hke, optMax_none_right]
          · rw [if_neg hle'] at hlr
            rw [hlr.1]
            by_cases hke : k' = e.1
            · subst hke
              rw [if_pos rfl]
              unfold Spec.numRevealed lastRevealedIndex at hle'
              cases hg : s0.1.lastRevealed.get e.1 with
              | none => rw [hg] at hle'; simp at hle'
              | some v => rw [hg] at hle'; simp only [optMax] at hle' ⊢; congr 1; omega
            · rw [if_neg hke, optMax_none_right]
        have hnd' := List.nodup_cons.1 (by simpa using hnd : (e.1 :: l.map Prod.fst).Nodup)
        have := ih (r1.1, if r1.2.2.isEmpty then s0.2 else (s0.2.1.insert e.1 r1.2.1, DerivationAdditions.append s0.2.2 r1.2.2)) r
          hi1 (hkc1.trans hkc) hnd'.2 (fun e' he' => hle e' (List.mem_cons_of_mem _ he')) h k
        rw [this]
        show optMax (r1.1.lastRevealed.get k) _ = _
        rw [hlr1 k, optMax_assoc]
        congr 1
        by_cases hke : k = e.1
        · subst hke
          have hn : OMap.rawGet e.1 l = none := by
            cases hg : OMap.rawGet e.1 l with
            | none => rfl
            | some v =>
              exact absurd (List.mem_map.2 ⟨_, OMap.mem_of_rawGet hg, rfl⟩) hnd'.1
          rw [if_pos rfl, hn, optMax_none_right]
          simp [OMap.rawGet]
        · rw [if_neg hke]
          simp [OMap.rawGet, Ne.symm hke, hke, optMax]
  apply OMap.ext_get; intro k
  rw [DerivationAdditions.get_append]
  exact gen m.entries (s, OMap.empty, OMap.empty) r hi rfl m.keys_nodup
    (fun e he d hk => hm e.1 e.2 (OMap.mem_entries.1 he) d hk) h k

/-! ## unused scripts -/

theorem lex_ge_lt {k k' : K} {i n : Nat} :
    ((toLex (k, 0) : K ×ₗ Nat) ≤ toLex (k', i) ∧ (toLex (k', i) : K ×ₗ Nat) < toLex (k, n)) ↔ k' = k ∧ i < n := by
  rw [Prod.Lex.toLex_le_toLex, Prod.Lex.toLex_lt_toLex]
  constructor
  · rintro ⟨h1, h2⟩
    simp only [] at h1 h2
    rcases h2 with h2 | ⟨h2, h3⟩
    · rcases h1 with h1 | ⟨h1, -⟩
      · exact absurd (lt_trans h1 h2) (lt_irrefl _)
      · rw [h1] at h2; exact absurd h2 (lt_irrefl _)
    · exact ⟨h2, h3⟩
  · rintro ⟨rfl, h⟩
    exact ⟨Or.inr ⟨rfl, Nat.zero_le _⟩, Or.inr ⟨rfl, h⟩⟩

/-- what `unused_spks_of_keychain` yields, in order -/
theorem unusedSpks_spec {s : KeychainIndex K D} {k : K} {l} (h : s.unusedSpksOfKeychain k = some l) :
    (∀ i o, (i, o) ∈ l ↔ s.inner.unused.mem (toLex (k, i)) = true ∧ i < Spec.numRevealed s k ∧ o = s.inner.spkAtIndex (toLex (k, i))) ∧
    l.Pairwise (fun a b => a.1 < b.1) := by
  unfold unusedSpksOfKeychain at h
  cases hn : s.nextRevealIndex k with
  | none => rw [hn] at h; cases h
  | some nr =>
    have hnr := numRevealed_eq hn
    subst hnr
    rw [hn] at h
    simp only [Option.bind_eq_bind, Option.bind_some] at h
    unfold SpkIndex.unusedSpks at h
    by_cases hp : Bound.rangePanics (.included (toLex (k, 0))) (.excluded (toLex (k, Spec.numRevealed s k)) : Bound (K ×ₗ Nat)) = true
    · rw [if_pos hp] at h; cases h
    · rw [if_neg hp] at h
      have h' := Option.some.inj h
      rw [List.map_map] at h'
      have hkey : ∀ e : K ×ₗ Nat, e ∈ s.inner.unused.toList.filter (fun i => Bound.geB (.included (toLex (k, 0))) i &&
          Bound.leB (.excluded (toLex (k, Spec.numRevealed s k))) i) ↔
          s.inner.unused.mem e = true ∧ ∃ i, e = toLex (k, i) ∧ i < Spec.numRevealed s k := by
        intro e
        rw [List.mem_filter, OSet.mem_toList, Bool.and_eq_true]
        constructor
        · rintro ⟨h1, h2, h3⟩
          obtain ⟨h4, h5⟩ := lex_ge_lt (k := k) (k' := (ofLex e).1) (i := (ofLex e).2) |>.1 ⟨of_decide_eq_true h2, of_decide_eq_true h3⟩
          exact ⟨h1, (ofLex e).2, by rw [← h4]; rfl, h5⟩
        · rintro ⟨h1, j, rfl, h3⟩
          obtain ⟨h4, h5⟩ := lex_ge_lt.2 (⟨rfl, h3⟩ : k = k ∧ j < Spec.numRevealed s k)
          exact ⟨h1, decide_eq_true h4, decide_eq_true h5⟩
      constructor
      · intro i o
        rw [← h', List.mem_map]
        constructor
        · rintro ⟨e, he, h1⟩
          obtain ⟨h2, j, rfl, h4⟩ := (hkey e).1 he
          have h5 : (j, s.inner.spkAtIndex (toLex (k, j))) = (i, o) := h1
          cases h5
          exact ⟨h2, h4, rfl⟩
        · rintro ⟨h1, h2, rfl⟩
          exact ⟨toLex (k, i), (hkey _).2 ⟨h1, i, rfl, h2⟩, rfl⟩
      · rw [← h', List.pairwise_map]
        have hs := (OSet.toList_sorted s.inner.unused).filter (fun i => Bound.geB (.included (toLex (k, 0))) i &&
          Bound.leB (.excluded (toLex (k, Spec.numRevealed s k))) i)
        refine hs.imp_of_mem ?_
        intro a b ha hb hab
        obtain ⟨-, i, rfl, -⟩ := (hkey a).1 ha
        obtain ⟨-, j, rfl, -⟩ := (hkey b).1 hb
        rcases Prod.Lex.toLex_lt_toLex.1 hab with h1 | ⟨-, h1⟩
        · exact absurd h1 (lt_irrefl _)
        · exact h1

/-- an index in the unused set has a script -/
theorem unused_stored {s : KeychainIndex K D} (hi : Inv s) {k : K} {i : Nat} (h : s.inner.unused.mem (toLex (k, i)) = true) :
    ∃ spk, s.inner.spks.get (toLex (k, i)) = some spk := by
  obtain ⟨hh, he, hf⟩ := hi.hist
  rw [he] at h ⊢
  exact (SpkIndex.run_spks_isSome hh _).2 ((SpkIndex.run_unused hh hf _).1 h).1

/-- an index with a found output is not unused -/
theorem found_used {s : KeychainIndex K D} (hi : Inv s) {o : OutPoint} {k : K} {i : Nat} {x : TxOut}
    (h : s.inner.txout o = some (toLex (k, i), x)) : s.inner.unused.mem (toLex (k, i)) = false := by
  obtain ⟨hh, he, hf⟩ := hi.hist
  rw [he] at h ⊢
  cases hm : (SpkIndex.run hh).unused.mem (toLex (k, i)) with
  | false => rfl
  | true =>
    have hu := (SpkIndex.run_unused hh hf _).1 hm
    have hl := (SpkIndex.run_txouts hh o _ x).1 h
    obtain ⟨h1, h2, e1, e2, -⟩ := hl
    exact absurd ⟨o, x, h1, h2, e1, e2⟩ hu.2.1

/-! ## scanning -/

/-- a stored index is at most the cap of its keychain -/
theorem stored_known {s : KeychainIndex K D} (hi : Inv s) {k : K} {i : Nat} {spk : Script}
    (h : s.inner.spks.get (toLex (k, i)) = some spk) : ∃ d, s.keychains.get k = some d ∧ i ≤ cap d ∧ spkAt d i = some spk := by
  cases hk : s.keychains.get k with
  | none => rw [(hi.absent k hk).1 i] at h; cases h
  | some d =>
    obtain ⟨n, h1, h2, -⟩ := hi.contig k d hk
    rw [h1] at h
    by_cases hlt : i < n
    · rw [if_pos hlt] at h; exact ⟨d, rfl, by omega, h⟩
    · rw [if_neg hlt] at h; cases h

theorem reveal_numRevealed {s : KeychainIndex K D} {k : K} {t : Nat} {r} (h : s.revealToTarget k t = some r) (hi : Inv s)
    (hd : AllDerivable s) {d : D} (hk : s.keychains.get k = some d) (ht : t ≤ cap d) :
    Spec.numRevealed r.1 k = max (Spec.numRevealed s k) (t + 1) := by
  obtain ⟨d', n, n', hk', -, -, -, -, -, -, -, -, -, -, hlr⟩ := reveal_main h hi hd
  have : d' = d := by rw [hk] at hk'; exact (Option.some.inj hk').symm
  subst this
  have ht' : (if hasWildcard d' then t else 0) = t := by
    by_cases hw : hasWildcard d' = true
    · rw [if_pos hw]
    · rw [if_neg hw]
      unfold cap at ht
      rw [if_neg hw] at ht
      omega
  rw [newRevealed_le (by rw [ht']; exact ht), ht'] at hlr
  by_cases hle : Spec.numRevealed s k ≤ t
  · rw [if_pos hle] at hlr
    have : Spec.numRevealed r.1 k = t + 1 := by
      unfold Spec.numRevealed lastRevealedIndex
      rw [hlr.1, OMap.get_insert_self]
    rw [this]; omega
  · rw [if_neg hle] at hlr
    have : Spec.numRevealed r.1 k = Spec.numRevealed s k := by
      unfold Spec.numRevealed lastRevealedIndex
      rw [hlr.1]
    rw [this]; omega

/-- what one `scan_txout` does -/
theorem scanTxout_main {s : KeychainIndex K D} {o : OutPoint} {x : TxOut} {r} (h : s.scanTxout o x = some r) (hi : Inv s)
    (hd : AllDerivable s) :
    r.1.keychains = s.keychains ∧ r.1.lookahead = s.lookahead ∧
    (∀ o', o' ≠ o → r.1.inner.txout o' = s.inner.txout o') ∧
    (∀ k i, s.inner.spks.get (toLex (k, i)) = some x.spk →
      r.1.inner.txout o = some (toLex (k, i), x) ∧ i + 1 ≤ Spec.numRevealed r.1 k) := by
  unfold scanTxout at h
  simp only [] at h
  cases hg : s.inner.spkIndices.get x.spk with
  | none =>
    rw [SpkIndex.scanTxout_none hg] at h
    cases h
    refine ⟨rfl, rfl, fun _ _ => rfl, fun k i hs => ?_⟩
    rw [(hi.hist.spk_iff _ _).1 hs] at hg; cases hg
  | some ki =>
    rw [SpkIndex.scanTxout_some hg] at h
    simp only [Option.map_eq_some_iff] at h
    obtain ⟨r', hr', rfl⟩ := h
    have hu := innerScan_upd s o x
    rw [SpkIndex.scanTxout_some hg] at hu
    have hi' := hu.inv hd hi
    have hd' := AllDerivable_congr hu.kc hd
    obtain ⟨d, n, n', hk, hc, -, hc', -, e1, e2, e3, -, -, -, -⟩ := reveal_main hr' hi' hd'
    refine ⟨e1, e2, fun o' ho' => ?_, fun k i hs => ?_⟩
    · show r'.1.inner.txouts.get o' = _
      rw [e3]
      show (s.inner.txouts.insert o (ki, x)).get o' = _
      rw [OMap.get_insert, if_neg ho']; rfl
    · have hki : ki = toLex (k, i) := by
        have := (hi.hist.spk_iff _ _).1 hs
        rw [hg] at this
        exact Option.some.inj this
      subst hki
      refine ⟨?_, ?_⟩
      · show r'.1.inner.txouts.get o = _
        rw [e3]
        show (s.inner.txouts.insert o (toLex (k, i), x)).get o = _
        rw [OMap.get_insert_self]
      · obtain ⟨d2, hk2, hcap, -⟩ := stored_known hi hs
        have := reveal_numRevealed hr' hi' hd' (d := d2) hk2 hcap
        show i + 1 ≤ Spec.numRevealed r'.1 k
        have h2 : Spec.numRevealed r'.1 k = max _ (i + 1) := this
        omega

/-- `scan` of two lists -/
theorem scan_cons {s : KeychainIndex K D} {e : OutPoint × TxOut} {l : List (OutPoint × TxOut)} {r} (h : s.scan (e :: l) = some r) :
    ∃ r1 r2, s.scanTxout e.1 e.2 = some r1 ∧ r1.1.scan l = some r2 ∧ r.1 = r2.1 := by
  have gen : ∀ (l : List (OutPoint × TxOut)) (s0 : KeychainIndex K D) a b r,
      l.foldlM (fun (acc : KeychainIndex K D × DerivationAdditions K) e => do
        let r ← acc.1.scanTxout e.1 e.2
        return (r.1, DerivationAdditions.append acc.2 r.2)) (s0, a) = some r →
      ∃ r', l.foldlM (fun (acc : KeychainIndex K D × DerivationAdditions K) e => do
        let r ← acc.1.scanTxout e.1 e.2
        return (r.1, DerivationAdditions.append acc.2 r.2)) (s0, b) = some r' ∧ r.1 = r'.1 := by
    intro l
    induction l with
    | nil => intro s0 a b r h; cases h; exact ⟨(s0, b), rfl, rfl⟩
    | cons e l ih =>
      intro s0 a b r h
      rw [List.foldlM_cons] at h ⊢
      cases hs : s0.scanTxout e.1 e.2 with
      | none =>
        simp only [] at h
        rw [hs] at h; cases h
      | some r1 =>
        simp only [hs] at h ⊢
        exact ih r1.1 _ _ r h
  unfold scan at h
  rw [List.foldlM_cons] at h
  cases hs : s.scanTxout e.1 e.2 with
  | none => simp only [hs] at h; cases h
  | some r1 =>
    simp only [hs] at h
    obtain ⟨r', h1, h2⟩ := gen l r1.1 _ OMap.empty r h
    exact ⟨r1, r', rfl, h1, h2⟩

/-- what `scan` keeps -/
theorem scan_keeps {s : KeychainIndex K D} {l : List (OutPoint × TxOut)} {r} (h : s.scan l = some r) (hi : Inv s)
    (hd : AllDerivable s) :
    r.1.keychains = s.keychains ∧ r.1.lookahead = s.lookahead ∧
    (∀ o', (∀ x, (o', x) ∉ l) → r.1.inner.txout o' = s.inner.txout o') ∧
    (∀ k, Spec.numRevealed s k ≤ Spec.numRevealed r.1 k) := by
  induction l generalizing s r with
  | nil => cases h; exact ⟨rfl, rfl, fun _ _ => rfl, fun _ => le_refl _⟩
  | cons e l ih =>
    obtain ⟨r1, r2, h1, h2, h3⟩ := scan_cons h
    have hu := scanTxout_upd h1
    obtain ⟨a1, a2, a3, -⟩ := scanTxout_main h1 hi hd
    obtain ⟨b1, b2, b3, b4⟩ := ih h2 (hu.inv hd hi) (AllDerivable_congr hu.kc hd)
    rw [h3]
    refine ⟨b1.trans a1, b2.trans a2, fun o' ho' => ?_, fun k => ?_⟩
    · rw [b3 o' (fun x hx => ho' x (List.mem_cons_of_mem _ hx)), a3 o' (fun he => ho' e.2 (by rw [he]; exact List.mem_cons_self ..))]
    · have := b4 k
      rw [hu.numRevealed k] at this
      omega

/-- in range of the lookahead means stored -/
theorem stored_of_range {s : KeychainIndex K D} (hi : Inv s) {k : K} {d : D} {i : Nat} (hk : s.keychains.get k = some d)
    (h1 : i < Spec.numRevealed s k + s.lookaheadOf k) (h2 : i ≤ cap d) : s.inner.spks.get (toLex (k, i)) = spkAt d i := by
  obtain ⟨n, a1, a2, a3⟩ := hi.contig k d hk
  rw [a1, if_pos (by omega)]

/-- all outputs in range of the lookahead are found -/
theorem scan_finds {s : KeychainIndex K D} {l : List (OutPoint × TxOut)} {r} (h : s.scan l = some r) (hi : Inv s)
    (hd : AllDerivable s) (hnd : (l.map Prod.fst).Nodup) {o : OutPoint} {x : TxOut} (hm : (o, x) ∈ l) {k : K} {d : D} {i : Nat}
    (hk : s.keychains.get k = some d) (h1 : i < Spec.numRevealed s k + s.lookaheadOf k) (h2 : i ≤ cap d)
    (hx : spkAt d i = some x.spk) : r.1.inner.txout o = some (toLex (k, i), x) ∧ i + 1 ≤ Spec.numRevealed r.1 k := by
  induction l generalizing s r with
  | nil => cases hm
  | cons e l ih =>
    obtain ⟨r1, r2, g1, g2, g3⟩ := scan_cons h
    have hu := scanTxout_upd g1
    obtain ⟨a1, a2, a3, a4⟩ := scanTxout_main g1 hi hd
    have hi1 := hu.inv hd hi
    have hd1 := AllDerivable_congr hu.kc hd
    have hnd' := List.nodup_cons.1 (by simpa using hnd : (e.1 :: l.map Prod.fst).Nodup)
    rw [g3]
    rcases List.mem_cons.1 hm with rfl | hm
    · obtain ⟨c1, c2⟩ := a4 k i (by rw [stored_of_range hi hk h1 h2]; exact hx)
      obtain ⟨b1, b2, b3, b4⟩ := scan_keeps g2 hi1 hd1
      refine ⟨?_, le_trans c2 (b4 k)⟩
      rw [b3 o (fun y hy => hnd'.1 (List.mem_map.2 ⟨_, hy, rfl⟩))]
      exact c1
    · refine ih g2 hi1 hd1 hnd'.2 hm (by rw [a1]; exact hk) ?_
      have := hu.numRevealed k
      have hla : r1.1.lookaheadOf k = s.lookaheadOf k := by unfold lookaheadOf; rw [a2]
      rw [hla]; omega

/-! ## bounds -/

/-- all the revealed indices are at most the bound -/
def LrOk (s : KeychainIndex K D) : Prop := ∀ k i, s.lastRevealed.get k = some i → i ≤ bip32MaxIndex

theorem reveal_lrOk {s : KeychainIndex K D} {k : K} {t : Nat} {r} (h : s.revealToTarget k t = some r) (hi : Inv s)
    (hd : AllDerivable s) (ht : t ≤ bip32MaxIndex) (hs : LrOk s) : LrOk r.1 := by
  obtain ⟨d, n, n', hk, -, -, -, -, -, -, -, -, -, -, hlr⟩ := reveal_main h hi hd
  intro k' i hg
  cases hn : newRevealed s k d t with
  | none =>
    rw [hn] at hlr
    rw [hlr.1] at hg
    exact hs k' i hg
  | some j =>
    rw [hn] at hlr
    rw [hlr.1, OMap.get_insert] at hg
    by_cases hkk : k' = k
    · rw [if_pos hkk] at hg
      cases hg
      have := (newRevealed_bounds hn).2
      split_ifs at this <;> omega
    · rw [if_neg hkk] at hg
      exact hs k' i hg

theorem nextIndex_le {s : KeychainIndex K D} {k : K} {n} (h : s.nextIndex k = some n) : n.1 ≤ bip32MaxIndex := by
  unfold nextIndex at h
  cases hk : s.keychains.get k with
  | none => rw [hk] at h; cases h
  | some d =>
    rw [hk] at h
    simp only [] at h
    cases hl : s.lastRevealed.get k with
    | none => rw [hl] at h; cases h; exact Nat.zero_le _
    | some i =>
      rw [hl] at h
      simp only [] at h
      split_ifs at h
      all_goals first
        | (have := Option.some.inj h; subst this; simp only []; omega)
        | (have := Option.some.inj h; subst this; exact Nat.zero_le _)

theorem revealNext_lrOk {s : KeychainIndex K D} {k : K} {r} (h : s.revealNextSpk k = some r) (hi : Inv s)
    (hd : AllDerivable s) (hs : LrOk s) : LrOk r.1 := by
  obtain ⟨n, r', hn, hr, -, e1, -, -⟩ := revealNext_spec h
  rw [e1]
  exact reveal_lrOk hr hi hd (nextIndex_le hn) hs

theorem nextUnused_lrOk {s : KeychainIndex K D} {k : K} {r} (h : s.nextUnusedSpk k = some r) (hi : Inv s)
    (hd : AllDerivable s) (hs : LrOk s) : LrOk r.1 := by
  obtain ⟨l, -, ⟨-, h1⟩ | ⟨l', -, e1, e2⟩⟩ := nextUnused_spec h
  · exact revealNext_lrOk h1 hi hd hs
  · rw [e1]; exact hs

theorem Upd.lrOk {s s' : KeychainIndex K D} (h : Upd s s' OMap.empty) (hs : LrOk s) : LrOk s' := by
  intro k i hg
  rw [h.lr, DerivationAdditions.append_empty] at hg
  exact hs k i hg

theorem scanTxout_lrOk {s : KeychainIndex K D} {o : OutPoint} {x : TxOut} {r} (h : s.scanTxout o x = some r) (hi : Inv s)
    (hd : AllDerivable s) (hs : LrOk s) : LrOk r.1 := by
  have hu := innerScan_upd s o x
  unfold scanTxout at h
  simp only [] at h
  cases hg : s.inner.spkIndices.get x.spk with
  | none =>
    rw [SpkIndex.scanTxout_none hg] at h
    cases h
    exact hs
  | some ki =>
    rw [SpkIndex.scanTxout_some hg] at h hu
    simp only [Option.map_eq_some_iff] at h
    obtain ⟨r', hr', rfl⟩ := h
    obtain ⟨d, -, hcap, -⟩ := stored_known hi (k := (ofLex ki).1) (i := (ofLex ki).2) ((hi.hist.spk_iff ki _).2 hg)
    exact reveal_lrOk hr' (hu.inv hd hi) (AllDerivable_congr hu.kc hd) (le_trans hcap (cap_le d)) (hu.lrOk hs)

theorem scan_lrOk {s : KeychainIndex K D} {l : List (OutPoint × TxOut)} {r} (h : s.scan l = some r) (hi : Inv s)
    (hd : AllDerivable s) (hs : LrOk s) : LrOk r.1 := by
  induction l generalizing s r with
  | nil => cases h; exact hs
  | cons e l ih =>
    obtain ⟨r1, r2, g1, g2, g3⟩ := scan_cons h
    have hu := scanTxout_upd g1
    rw [g3]
    exact ih g2 (hu.inv hd hi) (AllDerivable_congr hu.kc hd) (scanTxout_lrOk g1 hi hd hs)

theorem revealMulti_lrOk {s : KeychainIndex K D} {m : OMap K Nat} {r} (h : s.revealToTargetMulti m = some r) (hi : Inv s)
    (hd : AllDerivable s) (hs : LrOk s) (hm : ∀ k i, m.get k = some i → i ≤ bip32MaxIndex) : LrOk r.1 := by
  have gen : ∀ (l : List (K × Nat)) (s0 : KeychainIndex K D × OMap K (List (Nat × Script)) × DerivationAdditions K) r,
      (∀ e ∈ l, e.2 ≤ bip32MaxIndex) → Inv s0.1 → AllDerivable s0.1 → LrOk s0.1 →
      l.foldlM (fun (acc : KeychainIndex K D × OMap K (List (Nat × Script)) × DerivationAdditions K) e => do
        let r ← acc.1.revealToTarget e.1 e.2
        return (r.1, if r.2.2.isEmpty then acc.2 else (acc.2.1.insert e.1 r.2.1, DerivationAdditions.append acc.2.2 r.2.2))) s0 = some r →
      LrOk r.1 := by
    intro l
    induction l with
    | nil => intro s0 r _ _ _ h1 h; cases h; exact h1
    | cons e l ih =>
      intro s0 r hle hi0 hd0 hs0 h
      rw [List.foldlM_cons] at h
      cases hsr : s0.1.revealToTarget e.1 e.2 with
      | none => rw [hsr] at h; cases h
      | some r1 =>
        rw [hsr] at h
        have hu := reveal_upd hsr
        exact ih (r1.1, if r1.2.2.isEmpty then s0.2 else (s0.2.1.insert e.1 r1.2.1, DerivationAdditions.append s0.2.2 r1.2.2)) r
          (fun e' he' => hle e' (List.mem_cons_of_mem _ he')) (hu.inv hd0 hi0) (AllDerivable_congr hu.kc hd0)
          (reveal_lrOk hsr hi0 hd0 (hle e (List.mem_cons_self ..)) hs0) h
  exact gen m.entries (s, OMap.empty, OMap.empty) r (fun e he => hm e.1 e.2 (OMap.mem_entries.1 he)) hi hd hs h

end KeychainIndex
end Verif
