import Verif.Model.KeychainAll
import Verif.Props.KeychainIndex
import Verif.Props.SpkIndex

/-!
# Property C59: the listings of `KeychainTxOutIndex`
-/

namespace Verif.Props
open Verif Verif.Spec Verif.KeychainIndex
variable {K D : Type} [LinearOrder K] [DescriptorOps D] [DecidableEq D]

/-- **C59** `spks_of_keychain` yields the derivable indices `0, …, cap` in order, each with the script the descriptor has there;
it panics for an unknown keychain -/
theorem C59_spks_of_keychain (s : KeychainIndex K D) (k : K) :
    (s.keychains.get k = none → s.spksOfKeychain k = none) ∧
    ∀ d, s.keychains.get k = some d → Derivable d → ∃ l, s.spksOfKeychain k = some l ∧
      l.map Prod.fst = List.range (cap d + 1) ∧ ∀ i spk, (i, spk) ∈ l ↔ i ≤ cap d ∧ spkAt d i = some spk := by
  constructor
  · intro h; unfold spksOfKeychain; rw [h]; rfl
  · intro d hk hd
    have hc : cap d + 1 ≤ u32Max + 1 := by
      have := cap_le d
      have h2 : bip32MaxIndex ≤ u32Max := by decide
      omega
    have he : rangeDescriptorSpks d (List.range (u32Max + 1)) =
        (List.range (cap d + 1)).map (fun i => (i, (spkAt d i).getD 0)) := by
      rw [List.range_eq_range', derive_range d hd, Nat.sub_zero, Nat.min_eq_right hc, List.range_eq_range']
    refine ⟨_, by unfold spksOfKeychain; rw [hk]; rfl, ?_, ?_⟩
    · rw [he, List.map_map]
      exact List.map_id' _
    · intro i spk
      rw [he, List.mem_map]
      constructor
      · rintro ⟨j, hj, h1⟩
        obtain ⟨rfl, h3⟩ := Prod.mk.inj h1
        have hj' : j ≤ cap d := by have := List.mem_range.1 hj; omega
        refine ⟨hj', ?_⟩
        cases hs : spkAt d j with
        | none => exact absurd hs (hd j hj')
        | some x => rw [hs] at h3; exact congrArg some h3
      · rintro ⟨h1, h2⟩
        exact ⟨i, List.mem_range.2 (by omega), by rw [h2]; rfl⟩

/-- the `next_reveal_index` computation does not overflow -/
theorem nextReveal_total {s : KeychainIndex K D} {k : K} (h : numRevealed s k ≤ u32Max) :
    s.nextRevealIndex k = some (numRevealed s k) := by
  unfold nextRevealIndex numRevealed lastRevealedIndex at *
  cases hl : s.lastRevealed.get k with
  | none => rfl
  | some v => rw [hl] at h; exact addU32_ok h

/-- **C59** `revealed_spks_of_keychain` lists exactly the stored scripts with an index below the next one to reveal, in
ascending order -/
theorem C59_revealed_spks (s : KeychainIndex K D) (k : K) :
    (numRevealed s k ≤ u32Max → ∃ l, s.revealedSpksOfKeychain k = some l) ∧
    ∀ l, s.revealedSpksOfKeychain k = some l →
      (∀ i spk, (i, spk) ∈ l ↔ i < numRevealed s k ∧ stored s k i = some spk) ∧ l.Pairwise (fun a b => a.1 < b.1) := by
  constructor
  · intro h
    unfold revealedSpksOfKeychain; rw [nextReveal_total h]; exact ⟨_, rfl⟩
  · intro l h
    unfold revealedSpksOfKeychain at h
    cases hn : s.nextRevealIndex k with
    | none => rw [hn] at h; cases h
    | some nr =>
      have hnr := numRevealed_eq hn
      subst hnr
      rw [hn] at h
      have h' := Option.some.inj h
      have hkey : ∀ e : (K ×ₗ Nat) × Script, e ∈ s.inner.spks.entries.filter (fun e => decide ((toLex (k, 0) : K ×ₗ Nat) ≤ e.1) &&
          decide (e.1 < (toLex (k, numRevealed s k) : K ×ₗ Nat))) ↔
          s.inner.spks.get e.1 = some e.2 ∧ ∃ i, e.1 = toLex (k, i) ∧ i < numRevealed s k := by
        intro e
        rw [List.mem_filter, Bool.and_eq_true]
        constructor
        · rintro ⟨h1, h2, h3⟩
          obtain ⟨h4, h5⟩ := lex_ge_lt (k := k) (k' := (ofLex e.1).1) (i := (ofLex e.1).2) |>.1 ⟨of_decide_eq_true h2, of_decide_eq_true h3⟩
          exact ⟨OMap.mem_entries.1 h1, (ofLex e.1).2, by rw [← h4]; rfl, h5⟩
        · rintro ⟨h1, j, h2, h3⟩
          obtain ⟨h4, h5⟩ := lex_ge_lt.2 (⟨rfl, h3⟩ : k = k ∧ j < numRevealed s k)
          exact ⟨OMap.mem_entries.2 h1, by rw [h2]; exact decide_eq_true h4, by rw [h2]; exact decide_eq_true h5⟩
      constructor
      · intro i spk
        rw [← h', List.mem_map]
        constructor
        · rintro ⟨e, he, h1⟩
          obtain ⟨h2, j, h3, h4⟩ := (hkey e).1 he
          obtain ⟨h5, h6⟩ := Prod.mk.inj h1
          rw [h3] at h5
          have h5' : j = i := h5
          subst h5'; subst h6
          exact ⟨h4, by rw [h3] at h2; exact h2⟩
        · rintro ⟨h1, h2⟩
          exact ⟨(toLex (k, i), spk), (hkey _).2 ⟨h2, i, rfl, h1⟩, rfl⟩
      · rw [← h', List.pairwise_map]
        have hs := s.inner.spks.sorted
        have hs2 := (List.Pairwise.filter (fun e : (K ×ₗ Nat) × Script => decide ((toLex (k, 0) : K ×ₗ Nat) ≤ e.1) &&
          decide (e.1 < (toLex (k, numRevealed s k) : K ×ₗ Nat))) hs)
        refine hs2.imp_of_mem ?_
        intro a b ha hb hab
        obtain ⟨-, i, h1, -⟩ := (hkey a).1 ha
        obtain ⟨-, j, h2, -⟩ := (hkey b).1 hb
        rw [h1, h2] at hab ⊢
        rcases Prod.Lex.toLex_lt_toLex.1 hab with h1 | ⟨-, h1⟩
        · exact absurd h1 (lt_irrefl _)
        · exact h1

/-- **C59** in a reachable index `revealed_spks_of_keychain` lists the descriptor's scripts at all the revealed indices (a revealed
index above the largest derivable one, see C38, has no script) -/
theorem C59_revealed_spks_derived {s : KeychainIndex K D} (h : Reachable s) (hd : AllDerivable s) (k : K) (d : D)
    (hk : s.keychains.get k = some d) (l) (hl : s.revealedSpksOfKeychain k = some l) (i : Nat) (spk : Script) :
    (i, spk) ∈ l ↔ i < numRevealed s k ∧ i ≤ cap d ∧ spkAt d i = some spk := by
  rw [((C59_revealed_spks s k).2 l hl).1]
  obtain ⟨n, h1, h2, h3⟩ := C33_stored_contiguous h hd k d hk
  rw [h1]
  constructor
  · rintro ⟨h4, h5⟩
    by_cases hlt : i < n
    · rw [if_pos hlt] at h5; exact ⟨h4, by omega, h5⟩
    · rw [if_neg hlt] at h5; cases h5
  · rintro ⟨h4, h5, h6⟩
    exact ⟨h4, by rw [if_pos (by omega)]; exact h6⟩

/-- **C59** `unused_spks_of_keychain` lists the revealed indices that are not used, in ascending order, each with its script -/
theorem C59_unused_spks {s : KeychainIndex K D} (h : Reachable s) (hd : AllDerivable s) (k : K) (l)
    (hl : s.unusedSpksOfKeychain k = some l) :
    (∀ i o, (i, o) ∈ l ↔ RevealedUnused s k i ∧ o = stored s k i) ∧ (∀ i o, (i, o) ∈ l → o.isSome) ∧
      l.Pairwise (fun a b => a.1 < b.1) := by
  obtain ⟨h1, h2⟩ := unusedSpks_spec hl
  have hi := reachable_inv h hd
  refine ⟨fun i o => ?_, fun i o ho => ?_, h2⟩
  · rw [h1]
    unfold RevealedUnused SpkIndex.isUsed stored
    cases s.inner.unused.mem (toLex (k, i)) <;> simp
  · obtain ⟨h3, -, h5⟩ := (h1 i o).1 ho
    obtain ⟨spk, h6⟩ := unused_stored hi h3
    rw [h5]; unfold SpkIndex.spkAtIndex; rw [h6]; rfl

/-- the outputs listed are those of the reverse map -/
theorem txoutsOfKeychain_spec {s : KeychainIndex K D} (h : Reachable s) (hd : AllDerivable s) (k : K) :
    ∃ l, s.txoutsOfKeychain k = some l ∧ (∀ i o, (i, o) ∈ l ↔ s.inner.spkTxouts.mem (toLex (toLex (k, i), o)) = true) ∧
      l.Pairwise (fun a b => a.1 < b.1 ∨ a.1 = b.1 ∧ a.2 < b.2) := by
  have hi := reachable_inv h hd
  obtain ⟨hh, he, hf⟩ := hi.hist
  have hC := C30_outputs_in_range hh (.included (toLex (k, 0) : K ×ₗ Nat)) (.excluded (toLex (k, u32Max) : K ×ₗ Nat))
  rw [← he] at hC
  cases ho : s.inner.outputsInRange (.included (toLex (k, 0) : K ×ₗ Nat)) (.excluded (toLex (k, u32Max) : K ×ₗ Nat)) with
  | none =>
    have := hC.1.1 ho
    unfold Bound.rangePanics at this
    have h2 := of_decide_eq_true this
    rcases Prod.Lex.toLex_lt_toLex.1 h2 with h1 | ⟨-, h1⟩
    · exact absurd h1 (lt_irrefl _)
    · exact absurd h1 (by simp)
  | some l =>
    obtain ⟨-, hs⟩ := hC.2 l ho
    have hm := SpkIndex.mem_outputsInRange ho
    have hidx : ∀ e ∈ l, ∃ i, e.1 = toLex (k, i) := by
      intro e hel
      obtain ⟨-, h2, h3⟩ := (hm e.1 e.2).1 hel
      obtain ⟨h4, -⟩ := lex_ge_lt (k := k) (k' := (ofLex e.1).1) (i := (ofLex e.1).2) |>.1 ⟨of_decide_eq_true h2, of_decide_eq_true h3⟩
      exact ⟨(ofLex e.1).2, by rw [← h4]; rfl⟩
    refine ⟨l.map (fun e => ((ofLex e.1).2, e.2)), by unfold txoutsOfKeychain; rw [ho]; rfl, ?_, ?_⟩
    · intro i o
      rw [List.mem_map]
      constructor
      · rintro ⟨e, hel, h1⟩
        obtain ⟨j, hj⟩ := hidx e hel
        obtain ⟨h5, h6⟩ := Prod.mk.inj h1
        rw [hj] at h5
        have h5' : j = i := h5
        subst h5'; subst h6
        have := ((hm e.1 e.2).1 hel).1
        rw [hj] at this; exact this
      · intro hmem
        have hst : ∃ spk, s.inner.spks.get (toLex (k, i)) = some spk := by
          have h1 := hmem
          rw [he, SpkIndex.run_spkTxouts] at h1
          obtain ⟨t, ht⟩ := h1
          rw [he]
          exact SpkIndex.run_spks_some hh _ (SpkIndex.matched_inserted ht)
        obtain ⟨spk, hspk⟩ := hst
        obtain ⟨d, -, hcap, -⟩ := stored_known hi hspk
        have hlt : i < u32Max := by
          have := cap_le d
          have h2 : bip32MaxIndex < u32Max := by decide
          omega
        obtain ⟨h4, h5⟩ := lex_ge_lt.2 (⟨rfl, hlt⟩ : k = k ∧ i < u32Max)
        exact ⟨(toLex (k, i), o), (hm _ _).2 ⟨hmem, decide_eq_true h4, decide_eq_true h5⟩, rfl⟩
    · rw [List.pairwise_map]
      refine hs.imp_of_mem ?_
      intro a b ha hb hab
      obtain ⟨i, h1⟩ := hidx a ha
      obtain ⟨j, h2⟩ := hidx b hb
      rw [h1, h2] at hab ⊢
      rcases hab with h3 | ⟨h3, h4⟩
      · rcases Prod.Lex.toLex_lt_toLex.1 h3 with h1 | ⟨-, h1⟩
        · exact absurd h1 (lt_irrefl _)
        · exact Or.inl h1
      · exact Or.inr ⟨congrArg (fun e => (ofLex e).2) h3, h4⟩

/-- **C59** `txouts_of_keychain` never panics; it lists, ordered by index and outpoint, every output recorded for the keychain
with its index, and only indices that have outputs and outpoints that are recorded (`unmark_used` tests the former) -/
theorem C59_txouts_of_keychain {s : KeychainIndex K D} (h : Reachable s) (hd : AllDerivable s) (k : K) :
    ∃ l, s.txoutsOfKeychain k = some l ∧
      (∀ o i x, s.inner.txout o = some (toLex (k, i), x) → (i, o) ∈ l) ∧
      (∀ i, (∃ o, (i, o) ∈ l) ↔ s.inner.hasOutputs (toLex (k, i)) = true) ∧
      (∀ i o, (i, o) ∈ l → ∃ e, s.inner.txout o = some e) ∧
      l.Pairwise (fun a b => a.1 < b.1 ∨ a.1 = b.1 ∧ a.2 < b.2) := by
  obtain ⟨l, h1, h2, h3⟩ := txoutsOfKeychain_spec h hd k
  obtain ⟨hh, he, hf⟩ := (reachable_inv h hd).hist
  refine ⟨l, h1, ?_, ?_, ?_, h3⟩
  · intro o i x hx
    rw [h2, he, SpkIndex.run_spkTxouts]
    rw [he] at hx
    obtain ⟨a, b, e1, e2, -⟩ := (SpkIndex.run_txouts hh o _ x).1 hx
    exact ⟨x, a, b, e1, e2⟩
  · intro i
    rw [SpkIndex.hasOutputs_iff]
    exact ⟨fun ⟨o, ho⟩ => ⟨o, (h2 i o).1 ho⟩, fun ⟨o, ho⟩ => ⟨o, (h2 i o).2 ho⟩⟩
  · intro i o ho
    have h4 := (h2 i o).1 ho
    rw [he, SpkIndex.run_spkTxouts] at h4
    obtain ⟨t, a, b, e1, e2⟩ := h4
    obtain ⟨t', j, hl⟩ := (SpkIndex.exists_lastMatched (h := hh) (o := o)).2 ⟨_, _, a, b, e1, e2⟩
    exact ⟨(j, t'), by rw [he]; exact (SpkIndex.run_txouts hh o _ _).2 hl⟩

/-- **C59** `last_used_index` is the greatest index of the keychain with an output, `None` when there is none -/
theorem C59_last_used_index {s : KeychainIndex K D} (h : Reachable s) (hd : AllDerivable s) (k : K) :
    ∃ r, s.lastUsedIndex k = some r ∧
      (r = none ↔ ∀ i, s.inner.hasOutputs (toLex (k, i)) = false) ∧
      ∀ i, r = some i ↔ s.inner.hasOutputs (toLex (k, i)) = true ∧ ∀ j, s.inner.hasOutputs (toLex (k, j)) = true → j ≤ i := by
  obtain ⟨l, h1, -, h2, -, h3⟩ := C59_txouts_of_keychain h hd k
  refine ⟨l.getLast?.map Prod.fst, by unfold lastUsedIndex; rw [h1]; rfl, ?_, ?_⟩
  · rw [Option.map_eq_none_iff, List.getLast?_eq_none_iff]
    constructor
    · rintro rfl i
      cases hb : s.inner.hasOutputs (toLex (k, i)) with
      | false => rfl
      | true => obtain ⟨o, ho⟩ := (h2 i).2 hb; cases ho
    · intro hn
      cases l with
      | nil => rfl
      | cons e l => have := (h2 e.1).1 ⟨e.2, List.mem_cons_self⟩; rw [hn] at this; cases this
  · have key : ∀ e, l.getLast? = some e → s.inner.hasOutputs (toLex (k, e.1)) = true ∧
        ∀ j, s.inner.hasOutputs (toLex (k, j)) = true → j ≤ e.1 := by
      intro e hlast
      obtain ⟨init, rfl⟩ := List.getLast?_eq_some_iff.1 hlast
      refine ⟨(h2 e.1).1 ⟨e.2, by simp⟩, ?_⟩
      intro j hj
      obtain ⟨o, ho⟩ := (h2 j).2 hj
      rcases List.mem_append.1 ho with ho | ho
      · rcases (List.pairwise_append.1 h3).2.2 _ ho e (by simp) with h4 | ⟨h4, -⟩
        · exact le_of_lt h4
        · exact le_of_eq h4
      · rw [List.mem_singleton] at ho
        rw [← ho]
    intro i
    constructor
    · intro hr
      obtain ⟨e, he, rfl⟩ := Option.map_eq_some_iff.1 hr
      exact key e he
    · rintro ⟨h4, h5⟩
      cases hlast : l.getLast? with
      | none =>
        rw [List.getLast?_eq_none_iff] at hlast
        obtain ⟨o, ho⟩ := (h2 i).2 h4
        rw [hlast] at ho; cases ho
      | some e =>
        obtain ⟨h6, h7⟩ := key e hlast
        have h8 := h5 e.1 h6
        have h9 := h7 i h4
        exact congrArg some (by omega)

/-- **C59** `set_lookahead_for_all` gives every keychain the lookahead `n` and stores the scripts it asks for; descriptors, revealed
indices and recorded outputs stay as they were -/
theorem C59_set_lookahead_for_all {s s' : KeychainIndex K D} (h : Reachable s) (hd : AllDerivable s) (n : Nat)
    (hs : s.setLookaheadForAll n = some s') :
    (∀ k d, s.keychains.get k = some d → s'.lookaheadOf k = n ∧
      ∀ i, i < numRevealed s k + n → i ≤ cap d → stored s' k i = spkAt d i) ∧
    s'.keychains = s.keychains ∧ s'.lastRevealed = s.lastRevealed ∧ s'.inner.txouts = s.inner.txouts := by
  have hi := reachable_inv h hd
  unfold setLookaheadForAll at hs
  have gen : ∀ (l : List K) (a a' : KeychainIndex K D), Inv a → AllDerivable a → l.foldlM (fun s k => s.setLookahead k n) a = some a' →
      Inv a' ∧ a'.keychains = a.keychains ∧ a'.lastRevealed = a.lastRevealed ∧ a'.inner.txouts = a.inner.txouts ∧
      (∀ k, (k ∈ l ∨ a.lookahead.get k = some n) → a'.lookahead.get k = some n) := by
    intro l
    induction l with
    | nil =>
      intro a a' ha _ hf
      have := Option.some.inj hf
      subst this
      exact ⟨ha, rfl, rfl, rfl, fun k hk => hk.resolve_left (by simp)⟩
    | cons c l ih =>
      intro a a' ha had hf
      rw [List.foldlM_cons] at hf
      cases h1 : a.setLookahead c n with
      | none => rw [h1] at hf; cases hf
      | some b =>
        rw [h1] at hf
        obtain ⟨d, m, -, -, b1, b2, b3, b4, -, b6, -⟩ := setLookahead_inv h1 ha had
        obtain ⟨c1, c2, c3, c4, c5⟩ := ih b a' b1 (AllDerivable_congr b2 had) hf
        refine ⟨c1, c2.trans b2, c3.trans b3, c4.trans b6, ?_⟩
        intro k hk
        apply c5
        by_cases hkc : k = c
        · right; rw [b4, hkc, OMap.get_insert_self]
        · rcases hk with hk | hk
          · rcases List.mem_cons.1 hk with hk | hk
            · exact absurd hk hkc
            · exact Or.inl hk
          · right; rw [b4, OMap.get_insert, if_neg hkc]; exact hk
  obtain ⟨c1, c2, c3, c4, c5⟩ := gen _ s s' hi hd hs
  refine ⟨?_, c2, c3, c4⟩
  intro k d hk
  have hla : s'.lookaheadOf k = n := by
    unfold lookaheadOf
    rw [c5 k (Or.inl (OMap.mem_keys.2 ⟨d, hk⟩))]; rfl
  refine ⟨hla, fun i h1 h2 => ?_⟩
  obtain ⟨m, e1, -, e3⟩ := c1.contig k d (by rw [c2]; exact hk)
  have hnr : numRevealed s' k = numRevealed s k := by unfold numRevealed lastRevealedIndex; rw [c3]
  rw [hla, hnr] at e3
  show s'.inner.spks.get (toLex (k, i)) = _
  rw [e1, if_pos (by omega)]

/-- **C59** and it does not panic when the scripts do not collide and the indices are far from the `u32` limit -/
theorem C59_set_lookahead_for_all_ok {s : KeychainIndex K D} (h : Reachable s) (hd : AllDerivable s) (hnc : NoCollision s) (n : Nat)
    (hn : ∀ k, numRevealed s k + n ≤ u32Max) : ∃ s', s.setLookaheadForAll n = some s' := by
  unfold setLookaheadForAll
  have gen : ∀ (l : List K) (a : KeychainIndex K D), Inv a → a.keychains = s.keychains → a.lastRevealed = s.lastRevealed →
      (∀ k ∈ l, ∃ d, s.keychains.get k = some d) → ∃ a', l.foldlM (fun s k => s.setLookahead k n) a = some a' := by
    intro l
    induction l with
    | nil => intro a _ _ _ _; exact ⟨a, rfl⟩
    | cons c l ih =>
      intro a ha hk hl hmem
      obtain ⟨d, hd'⟩ := hmem c List.mem_cons_self
      have had := AllDerivable_congr hk hd
      have hnr : numRevealed a c = numRevealed s c := by unfold numRevealed lastRevealedIndex; rw [hl]
      have hnc' : NoCollision a := by unfold NoCollision; rw [hk]; exact hnc
      obtain ⟨b, hb⟩ := setLookahead_ok ha had hnc' (k := c) (d := d) (la := n) (by rw [hk]; exact hd') (by rw [hnr]; exact hn c)
      obtain ⟨_, _, -, -, b1, b2, b3, -⟩ := setLookahead_inv hb ha had
      obtain ⟨a', ha'⟩ := ih b b1 (b2.trans hk) (b3.trans hl) (fun k hk => hmem k (List.mem_cons_of_mem _ hk))
      exact ⟨a', by rw [List.foldlM_cons, hb]; exact ha'⟩
  exact gen _ s (reachable_inv h hd) rfl rfl (fun k hk => OMap.mem_keys.1 hk)

/-! ### all keychains at once -/

theorem collect_spec {V W : Type} (f : K → Option W) (g : W → Option V) :
    ∀ (l : List K) (m0 : OMap K V), l.Nodup → (∀ k ∈ l, ∃ w, f k = some w) →
      ∃ m, l.foldlM (fun (m : OMap K V) k => (f k).map fun w => match g w with
        | some v => m.insert k v
        | none => m) m0 = some m ∧
        ∀ k v, m.get k = some v ↔ (if k ∈ l ∧ ((f k).bind g).isSome then (f k).bind g = some v else m0.get k = some v)
  | [], m0, _, _ => ⟨m0, rfl, fun k v => by simp⟩
  | a :: l, m0, hn, hf => by
    obtain ⟨w, hw⟩ := hf a (by simp)
    rw [List.nodup_cons] at hn
    rw [List.foldlM_cons, hw]
    obtain ⟨m, h1, h2⟩ := collect_spec f g l (match g w with | some v => m0.insert a v | none => m0) hn.2
      (fun k hk => hf k (List.mem_cons_of_mem _ hk))
    refine ⟨m, h1, fun k v => ?_⟩
    rw [h2]
    by_cases hka : k = a
    · subst hka
      rw [if_neg (fun h => hn.1 h.1), hw]
      cases hg : g w with
      | none => simp [hg]
      | some x => simp [hg, OMap.get_insert_self]
    · have e : (match g w with | some v => m0.insert a v | none => m0).get k = m0.get k := by
        cases hg : g w with
        | none => rfl
        | some x => simp only [OMap.get_insert, if_neg hka]
      rw [e]
      simp [hka]

/-- **C59** `last_used_indices` never panics and has, for each keychain at which outputs were found, the highest index with one -/
theorem C59_last_used_indices {s : KeychainIndex K D} (h : Reachable s) (hd : AllDerivable s) :
    ∃ m, s.lastUsedIndices = some m ∧
      ∀ k i, m.get k = some i ↔ (∃ d, s.keychains.get k = some d) ∧ s.inner.hasOutputs (toLex (k, i)) = true ∧
        ∀ j, s.inner.hasOutputs (toLex (k, j)) = true → j ≤ i := by
  obtain ⟨m, h1, h2⟩ := collect_spec (f := s.lastUsedIndex) (g := fun r => r) s.keychains.keys OMap.empty (OMap.keys_nodup _)
    (fun k _ => (C59_last_used_index h hd k).imp fun r hr => hr.1)
  refine ⟨m, ?_, fun k i => ?_⟩
  · unfold lastUsedIndices
    rw [← h1]
    congr 1
    funext m k
    congr 1
    funext r
    cases r <;> rfl
  · rw [h2]
    obtain ⟨r, e1, -, e3⟩ := C59_last_used_index h hd k
    rw [← e3, e1]
    have hm : k ∈ s.keychains.keys ↔ ∃ d, s.keychains.get k = some d := OMap.mem_keys
    cases r with
    | none => simp [OMap.get_empty]
    | some x =>
      by_cases hk : ∃ d, s.keychains.get k = some d
      · simp [hk, hm.2 hk]
      · rw [if_neg (fun h => hk (hm.1 h.1))]
        simp [hk, OMap.get_empty]

/-- **C59** `revealed_spks_of_all_keychains` has, for exactly the known keychains, what `revealed_spks_of_keychain` lists -/
theorem C59_revealed_spks_of_all {s : KeychainIndex K D} (hn : ∀ k, numRevealed s k ≤ u32Max) :
    ∃ m, s.revealedSpksOfAllKeychains = some m ∧
      ∀ k l, m.get k = some l ↔ (∃ d, s.keychains.get k = some d) ∧ s.revealedSpksOfKeychain k = some l := by
  obtain ⟨m, h1, h2⟩ := collect_spec (f := s.revealedSpksOfKeychain) (g := some) s.keychains.keys OMap.empty (OMap.keys_nodup _)
    (fun k _ => (C59_revealed_spks s k).1 (hn k))
  refine ⟨m, h1, fun k l => ?_⟩
  rw [h2]
  have hm : k ∈ s.keychains.keys ↔ ∃ d, s.keychains.get k = some d := OMap.mem_keys
  obtain ⟨x, hx⟩ := (C59_revealed_spks s k).1 (hn k)
  rw [hx]
  by_cases hk : ∃ d, s.keychains.get k = some d
  · simp [hk, hm.2 hk]
  · rw [if_neg (fun h => hk (hm.1 h.1))]
    simp [hk, OMap.get_empty]

/-- **C59** `lookaheads` has an entry for exactly the keychains whose lookahead was set, and all of them are known -/
theorem C59_lookaheads {s : KeychainIndex K D} (h : Reachable s) (hd : AllDerivable s) (k : K) :
    (∀ n, s.lookaheads.get k = some n → s.lookaheadOf k = n ∧ ∃ d, s.keychains.get k = some d) ∧
    (s.lookaheads.get k = none → s.lookaheadOf k = 0) := by
  unfold lookaheads lookaheadOf
  refine ⟨fun n hn => ⟨by rw [hn]; rfl, ?_⟩, fun hn => by rw [hn]; rfl⟩
  cases hk : s.keychains.get k with
  | some d => exact ⟨d, rfl⟩
  | none => rw [((reachable_inv h hd).absent k hk).2.2] at hn; cases hn

/-! ### a concrete index -/

example : Reachable exKc ∧ AllDerivable exKc ∧ NoCollision exKc := ⟨exKc_reachable, demo_allDerivable _, demo_noCollision exKc_bases⟩

/-- outputs were found at the indices 0 and 4 of keychain 0 and none elsewhere -/
example : exKc.revealedSpksOfKeychain 0 = some [(0, 0), (1, 4), (2, 8), (3, 12), (4, 16)] ∧
    exKc.unusedSpksOfKeychain 0 = some [(1, some 4), (2, some 8), (3, some 12)] ∧
    (exKc.txoutsOfKeychain 0).map (List.map Prod.fst) = some [0, 4] ∧
    exKc.lastUsedIndex 0 = some (some 4) ∧ exKc.lastUsedIndex 1 = some none ∧
    (exKc.setLookaheadForAll 9).map (fun s => (s.nextStoreIndex 0, s.nextStoreIndex 1)) = some (14, 11) := by
  decide +kernel

example : exKc.lastUsedIndices.map OMap.entries = some [(0, 4)] ∧
    (exKc.revealedSpksOfAllKeychains.map fun m => m.entries.map fun e => (e.1, e.2.length)) = some [(0, 5), (1, 2), (2, 1)] ∧
    exKc.lookaheads.entries = [(0, 2)] := by decide +kernel

end Verif.Props
