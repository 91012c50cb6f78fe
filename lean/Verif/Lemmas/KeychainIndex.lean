import Verif.Spec.KeychainIndex
import Verif.Lemmas.SpkIndex2

/-!
# Lemmas about `KeychainTxOutIndex`
-/

namespace Verif
open Verif Verif.Spec
variable {K D : Type} [LinearOrder K] [DescriptorOps D]

theorem addU32_eq {a b c : Nat} (h : addU32 a b = some c) : c = a + b ∧ a + b ≤ u32Max := by
  unfold addU32 at h
  split_ifs at h with h1
  exact ⟨(Option.some.inj h).symm, h1⟩

theorem addU32_ok {a b : Nat} (h : a + b ≤ u32Max) : addU32 a b = some (a + b) := by
  unfold addU32; rw [if_pos h]

theorem bip32Max_val : bip32MaxIndex = 2 ^ 30 := rfl

theorem cap_le (d : D) : cap d ≤ bip32MaxIndex := by
  unfold cap; split_ifs <;> simp [bip32Max_val]

/-! ## derived ranges -/

theorem derive_nil (d : D) : rangeDescriptorSpks d [] = [] := rfl

theorem derive_cons (d : D) (i : Nat) (l : List Nat) (hi : i ≤ cap d) (hd : Derivable d) :
    rangeDescriptorSpks d (i :: l) = (i, (spkAt d i).getD 0) :: rangeDescriptorSpks d l := by
  obtain ⟨s, hs⟩ := Option.ne_none_iff_exists'.1 (hd i hi)
  have h1 : (hasWildcard d || i == 0) = true := by
    unfold cap at hi
    cases hw : hasWildcard d <;> simp_all
  have h2 : decide (i ≤ bip32MaxIndex) = true := decide_eq_true (le_trans hi (cap_le d))
  unfold rangeDescriptorSpks
  rw [List.takeWhile_cons, if_pos h1, List.takeWhile_cons, if_pos h2]
  simp [mapWhile, hs]

theorem derive_stop (d : D) (i : Nat) (l : List Nat) (hi : cap d < i) : rangeDescriptorSpks d (i :: l) = [] := by
  unfold rangeDescriptorSpks
  rw [List.takeWhile_cons]
  unfold cap at hi
  cases hw : hasWildcard d with
  | false =>
    rw [hw] at hi
    simp only [Bool.false_eq_true, if_false] at hi
    have : (false || i == 0) = false := by simp; omega
    rw [if_neg (by rw [this]; simp)]
    rfl
  | true =>
    rw [hw] at hi
    simp only [if_true] at hi
    rw [if_pos (by simp), List.takeWhile_cons, if_neg (by simpa using hi)]
    rfl

/-- the scripts derived for the `m` indices from `a` on -/
theorem derive_range (d : D) (hd : Derivable d) (a m : Nat) :
    rangeDescriptorSpks d (List.range' a m) =
      (List.range' a (min m (cap d + 1 - a))).map (fun i => (i, (spkAt d i).getD 0)) := by
  induction m generalizing a with
  | zero => simp [derive_nil]
  | succ m ih =>
    rw [List.range'_succ]
    by_cases ha : a ≤ cap d
    · rw [derive_cons d a _ ha hd, ih]
      have : min (m + 1) (cap d + 1 - a) = min m (cap d + 1 - (a + 1)) + 1 := by omega
      rw [this, List.range'_succ, List.map_cons]
    · rw [derive_stop d a _ (by omega)]
      have : min (m + 1) (cap d + 1 - a) = 0 := by omega
      rw [this]; rfl

theorem rawGet_range (f : Nat → Script) (a c i : Nat) :
    OMap.rawGet i ((List.range' a c).map (fun i => (i, f i))) = if a ≤ i ∧ i < a + c then some (f i) else none := by
  induction c generalizing a with
  | zero => simp only [List.range'_zero, List.map_nil, OMap.rawGet]; rw [if_neg (by omega)]
  | succ c ih =>
    rw [List.range'_succ, List.map_cons]
    unfold OMap.rawGet
    by_cases hi : i = a
    · subst hi; rw [if_pos rfl, if_pos (by omega)]
    · rw [if_neg hi, ih]
      by_cases h1 : a ≤ i ∧ i < a + (c + 1)
      · rw [if_pos h1, if_pos (by omega)]
      · rw [if_neg h1, if_neg (by omega)]

theorem revealedIndex_range (nr la t a c : Nat) (f : Nat → Script) :
    KeychainIndex.revealedIndex nr la t ((List.range' a c).map (fun i => (i, f i))) =
      if 0 < c ∧ a ≤ t then some (min t (a + c - 1))
      else if nr ≤ t ∧ t < nr + la then some t else none := by
  unfold KeychainIndex.revealedIndex
  generalize (if nr ≤ t ∧ t < nr + la then some t else none) = init
  induction c with
  | zero => simp
  | succ c ih =>
    rw [List.range'_concat, List.map_append, List.foldl_append, ih]
    simp only [List.map_cons, List.map_nil, List.foldl_cons, List.foldl_nil, Nat.one_mul]
    by_cases h1 : a + c ≤ t
    · rw [if_pos h1, if_pos (by omega)]
      congr 1; omega
    · rw [if_neg h1]
      by_cases h2 : a ≤ t
      · rw [if_pos (by omega), if_pos (by omega)]; congr 1; omega
      · rw [if_neg (by omega), if_neg (by omega)]

/-! ## the inner index -/

namespace KeychainIndex
open SpkIndex

/-- the inner index was built by calls that give no index to two scripts -/
def HistInv {I : Type} [LinearOrder I] (x : SpkIndex I) : Prop := ∃ h, x = SpkIndex.run h ∧ FreshIndices h

theorem HistInv.spk_iff {I : Type} [LinearOrder I] {x : SpkIndex I} (hx : HistInv x) (i : I) (s : Script) :
    x.spks.get i = some s ↔ x.spkIndices.get s = some i := by
  obtain ⟨h, rfl, hf⟩ := hx
  rw [run_indices]
  constructor
  · exact run_spks_first h i s
  · intro hs
    obtain ⟨s', hs'⟩ := (run_spks_isSome h i).2 ⟨s, hs⟩
    rw [hf i s s' hs (run_spks_first h i s' hs')]; exact hs'

theorem HistInv.insert {I : Type} [LinearOrder I] {x : SpkIndex I} (hx : HistInv x) (i : I) (s : Script)
    (hi : x.spks.get i = none) : HistInv (x.insertSpk i s).1 := by
  obtain ⟨h, rfl, hf⟩ := hx
  refine ⟨h ++ [SpkIndex.Op.insertSpk i s], by rw [run_snoc]; rfl, ?_⟩
  have hno : ∀ s', ¬ FirstIndex h s' i := by
    intro s' hs'
    obtain ⟨s'', hs''⟩ := (run_spks_isSome h i).2 ⟨s', hs'⟩
    rw [hi] at hs''; cases hs''
  intro j a b ha hb
  rcases firstIndex_snoc.1 ha with ha | ⟨_, ha⟩ <;> rcases firstIndex_snoc.1 hb with hb | ⟨_, hb⟩
  · exact hf j a b ha hb
  · cases hb; exact absurd ha (hno a)
  · cases ha; exact absurd hb (hno b)
  · cases ha; cases hb; rfl

theorem HistInv.step_other {I : Type} [LinearOrder I] {x : SpkIndex I} (hx : HistInv x) (e : SpkIndex.Op I)
    (he : ∀ i s, e ≠ .insertSpk i s) : HistInv (x.step e) := by
  obtain ⟨h, rfl, hf⟩ := hx
  refine ⟨h ++ [e], (run_snoc h _).symm, ?_⟩
  intro j a b ha hb
  rcases firstIndex_snoc.1 ha with ha | ⟨_, ha⟩ <;> rcases firstIndex_snoc.1 hb with hb | ⟨_, hb⟩
  · exact hf j a b ha hb
  · exact absurd hb (he _ _)
  · exact absurd ha (he _ _)
  · exact absurd ha (he _ _)

/-- the effect of the storing loop -/
theorem storeSpks_spec {x x' : SpkIndex (K ×ₗ Nat)} {k : K} {f : Nat} {l : List (Nat × Script)}
    (h : storeSpks x k f l = some x') (hx : HistInv x) (hnd : (l.map Prod.fst).Nodup)
    (hnew : ∀ e ∈ l, f ≤ e.1 → x.spks.get (toLex (k, e.1)) = none) :
    HistInv x' ∧ x'.txouts = x.txouts ∧ x'.spkTxouts = x.spkTxouts ∧
    (∀ k' i, x'.spks.get (toLex (k', i)) =
      if k' = k ∧ f ≤ i then (OMap.rawGet i l).or (x.spks.get (toLex (k', i))) else x.spks.get (toLex (k', i))) ∧
    (∀ k' i, x'.unused.mem (toLex (k', i)) = true ↔
      x.unused.mem (toLex (k', i)) = true ∨ (k' = k ∧ f ≤ i ∧ (OMap.rawGet i l).isSome)) := by
  induction l generalizing x with
  | nil =>
    unfold storeSpks at h
    cases h
    refine ⟨hx, rfl, rfl, ?_, ?_⟩
    · intro k' i; simp [OMap.rawGet]
    · intro k' i; simp [OMap.rawGet]
  | cons e l ih =>
    obtain ⟨j, spk⟩ := e
    simp only [List.map_cons, List.nodup_cons] at hnd
    unfold storeSpks at h
    have hjl : OMap.rawGet j l = none := by
      cases hg : OMap.rawGet j l with
      | none => rfl
      | some v => exact absurd (List.mem_map.2 ⟨(j, v), OMap.mem_of_rawGet hg, rfl⟩) hnd.1
    by_cases hfj : f ≤ j
    · rw [if_pos hfj] at h
      simp only [] at h
      have hfree := hnew (j, spk) (by simp) hfj
      cases hg : x.spkIndices.get spk with
      | some i' => rw [insertSpk_some hg] at h; simp at h
      | none =>
        have hi := hx.insert (toLex (k, j)) spk hfree
        rw [insertSpk_none hg] at h hi
        rw [if_pos rfl] at h
        obtain ⟨a1, a2, a3, a4, a5⟩ := ih h hi hnd.2 (by
          intro e he hfe
          show (OMap.insert _ _ _).get _ = none
          rw [OMap.get_insert, if_neg]
          · exact hnew e (by simp [he]) hfe
          · intro heq
            have heq' : (k, e.1) = (k, j) := heq
            have : e.1 = j := by cases e; simp_all
            exact hnd.1 (List.mem_map.2 ⟨e, he, this⟩))
        refine ⟨a1, a2, a3, ?_, ?_⟩
        · intro k' i
          rw [a4]
          simp only [OMap.get_insert, OMap.rawGet]
          by_cases hk : k' = k ∧ f ≤ i
          · rw [if_pos hk, if_pos hk]
            obtain ⟨rfl, hk2⟩ := hk
            by_cases hij : i = j
            · subst hij; rw [if_pos rfl, if_pos rfl, hjl]; rfl
            · rw [if_neg hij, if_neg]
              intro heq
              have heq' : (k', i) = (k', j) := heq
              simp at heq'; exact hij heq'
          · rw [if_neg hk, if_neg hk, if_neg]
            intro heq
            have heq' : (k', i) = (k, j) := heq
            simp only [Prod.mk.injEq] at heq'
            exact hk ⟨heq'.1, by omega⟩
        · intro k' i
          rw [a5]
          show (OSet.add _ _).mem _ = true ∨ _ ↔ _
          rw [mem_add_iff]
          simp only [OMap.rawGet]
          constructor
          · rintro ((h1 | h1) | ⟨h1, h2, h3⟩)
            · have heq' : (k', i) = (k, j) := h1
              simp only [Prod.mk.injEq] at heq'
              obtain ⟨rfl, rfl⟩ := heq'
              exact Or.inr ⟨rfl, hfj, by simp⟩
            · exact Or.inl h1
            · refine Or.inr ⟨h1, h2, ?_⟩
              by_cases hij : i = j
              · rw [if_pos hij]; rfl
              · rw [if_neg hij]; exact h3
          · rintro (h1 | ⟨h1, h2, h3⟩)
            · exact Or.inl (Or.inr h1)
            · by_cases hij : i = j
              · subst hij; subst h1; exact Or.inl (Or.inl rfl)
              · rw [if_neg hij] at h3; exact Or.inr ⟨h1, h2, h3⟩
    · rw [if_neg hfj] at h
      obtain ⟨a1, a2, a3, a4, a5⟩ := ih h hx hnd.2 (fun e he hf => hnew e (by simp [he]) hf)
      refine ⟨a1, a2, a3, ?_, ?_⟩
      · intro k' i; rw [a4]
        by_cases hk : k' = k ∧ f ≤ i
        · rw [if_pos hk, if_pos hk]
          simp only [OMap.rawGet]
          rw [if_neg (by omega)]
        · rw [if_neg hk, if_neg hk]
      · intro k' i; rw [a5]
        apply or_congr Iff.rfl
        constructor
        · rintro ⟨h1, h2, h3⟩
          refine ⟨h1, h2, ?_⟩
          simp only [OMap.rawGet]; rw [if_neg (by omega)]; exact h3
        · rintro ⟨h1, h2, h3⟩
          refine ⟨h1, h2, ?_⟩
          simp only [OMap.rawGet] at h3; rw [if_neg (by omega)] at h3; exact h3

/-- when the storing loop does not panic -/
theorem storeSpks_ok {x : SpkIndex (K ×ₗ Nat)} {k : K} {f : Nat} {l : List (Nat × Script)}
    (hnd : (l.map Prod.snd).Nodup) (hnew : ∀ e ∈ l, f ≤ e.1 → x.spkIndices.get e.2 = none) :
    ∃ x', storeSpks x k f l = some x' := by
  induction l generalizing x with
  | nil => exact ⟨x, rfl⟩
  | cons e l ih =>
    obtain ⟨j, spk⟩ := e
    simp only [List.map_cons, List.nodup_cons] at hnd
    unfold storeSpks
    by_cases hfj : f ≤ j
    · rw [if_pos hfj]
      have hg := hnew (j, spk) (by simp) hfj
      simp only []
      rw [insertSpk_none hg, if_pos rfl]
      apply ih hnd.2
      intro e he hf
      show (OMap.insert _ _ _).get _ = none
      rw [OMap.get_insert, if_neg]
      · exact hnew e (by simp [he]) hf
      · intro heq; exact hnd.1 (List.mem_map.2 ⟨e, he, heq⟩)
    · rw [if_neg hfj]
      exact ih hnd.2 (fun e he hf => hnew e (by simp [he]) hf)

/-! ## invariant -/

/-- exactly the first `n` scripts of the keychain are stored, and `n` covers what is revealed plus the lookahead -/
def Contig (s : KeychainIndex K D) (k : K) (d : D) (n : Nat) : Prop :=
  (∀ i, s.inner.spks.get (toLex (k, i)) = if i < n then spkAt d i else none) ∧ n ≤ cap d + 1 ∧
  min (numRevealed s k + s.lookaheadOf k) (cap d + 1) ≤ n

/-- the invariant of reachable indices -/
structure Inv (s : KeychainIndex K D) : Prop where
  hist : HistInv s.inner
  absent : ∀ k, s.keychains.get k = none →
    (∀ i, s.inner.spks.get (toLex (k, i)) = none) ∧ s.lastRevealed.get k = none ∧ s.lookahead.get k = none
  contig : ∀ k d, s.keychains.get k = some d → ∃ n, Contig s k d n
  nw : ∀ k d i, s.keychains.get k = some d → hasWildcard d = false → s.lastRevealed.get k = some i → i = 0

theorem numRevealed_eq {s : KeychainIndex K D} {k : K} {nr : Nat} (h : s.nextRevealIndex k = some nr) :
    nr = numRevealed s k := by
  unfold nextRevealIndex at h
  unfold numRevealed lastRevealedIndex
  cases hl : s.lastRevealed.get k with
  | none => rw [hl] at h; exact (Option.some.inj h).symm
  | some v => rw [hl] at h; exact (addU32_eq h).1

/-- `next_store_index` is the number of stored scripts -/
theorem nextStoreIndex_eq {s : KeychainIndex K D} {k : K} {d : D} {n : Nat} (hc : Contig s k d n) (hd : Derivable d) :
    s.nextStoreIndex k = n := by
  obtain ⟨h1, h2, -⟩ := hc
  have hcap := cap_le d
  rw [bip32Max_val] at hcap
  unfold nextStoreIndex
  let p : (K ×ₗ Nat) → Script → Bool := fun key _ => decide ((toLex (k, 0) : K ×ₗ Nat) ≤ key) &&
      decide (key < (toLex (k, u32Max) : K ×ₗ Nat))
  have hL : (s.inner.spks.entries.filter (fun e => decide ((toLex (k, 0) : K ×ₗ Nat) ≤ e.1) &&
      decide (e.1 < (toLex (k, u32Max) : K ×ₗ Nat)))).getLast? = (s.inner.spks.filter p).last? := rfl
  rw [hL]
  have hp : ∀ k' i, p (toLex (k', i)) 0 = true ↔ k' = k ∧ i < u32Max := by
    intro k' i
    show (decide _ && decide _) = true ↔ _
    rw [Bool.and_eq_true, decide_eq_true_eq, decide_eq_true_eq, Prod.Lex.toLex_le_toLex, Prod.Lex.toLex_lt_toLex]
    constructor
    · rintro ⟨h1 | ⟨h1, -⟩, h2 | ⟨h2, h3⟩⟩
      · exact absurd h1 (not_lt.2 (le_of_lt h2))
      · exact absurd h1 (by rw [h2]; exact lt_irrefl _)
      · exact absurd h2 (by rw [h1]; exact lt_irrefl _)
      · exact ⟨h2, h3⟩
    · rintro ⟨rfl, h2⟩
      exact ⟨Or.inr ⟨rfl, Nat.zero_le _⟩, Or.inr ⟨rfl, h2⟩⟩
  have hget : ∀ key, (s.inner.spks.filter p).get key = if p key 0 = true then s.inner.spks.get key else none := by
    intro key
    rw [OMap.get_filter]
    cases s.inner.spks.get key with
    | none => simp
    | some v =>
      show (if p key v = true then some v else none) = _
      rfl
  by_cases hn : n = 0
  · have : (s.inner.spks.filter p) = OMap.empty := by
      apply OMap.eq_empty_iff.2
      intro key
      rw [hget]
      split_ifs with hk
      · have hk' : key = toLex (k, (ofLex key).2) := by
          have := (hp (ofLex key).1 (ofLex key).2).1 hk
          rw [← this.1]; rfl
        rw [hk', h1, if_neg (by omega)]
      · rfl
    rw [OMap.last?_eq_none.2 this, hn]
  · obtain ⟨spk, hspk⟩ := Option.ne_none_iff_exists'.1 (hd (n - 1) (by omega))
    have : (s.inner.spks.filter p).last? = some (toLex (k, n - 1), spk) := by
      rw [OMap.last?_eq_some]
      constructor
      · rw [hget, if_pos ((hp k (n - 1)).2 ⟨rfl, by unfold u32Max; omega⟩), h1, if_pos (by omega), hspk]
      · intro key v hv
        rw [hget] at hv
        split_ifs at hv with hk
        have hk2 := (hp (ofLex key).1 (ofLex key).2).1 hk
        have hk' : key = toLex (k, (ofLex key).2) := by rw [← hk2.1]; rfl
        rw [hk', h1] at hv
        split_ifs at hv with hlt
        rw [hk', Prod.Lex.toLex_le_toLex]
        exact Or.inr ⟨rfl, by omega⟩
    rw [this]
    show (n - 1) + 1 = n
    omega

end KeychainIndex
end Verif
