import Verif.Model.Tracker
import Verif.Lemmas.KeychainIndex4

namespace Verif
open Verif Verif.Spec

/-! ## the additions of a reveal bring a copy of the state to the same place -/

section derive
variable {D : Type} [DescriptorOps D]

/-- whether the script of index `i` is derived at all -/
def derivesAt (d : D) (i : Nat) : Bool := (hasWildcard d || i == 0) && decide (i ≤ bip32MaxIndex) && (spkAt d i).isSome

theorem range_step (d : D) (i : Nat) (l : List Nat) :
    rangeDescriptorSpks d (i :: l) = if derivesAt d i then (i, (spkAt d i).getD 0) :: rangeDescriptorSpks d l else [] := by
  unfold rangeDescriptorSpks derivesAt
  by_cases h1 : (hasWildcard d || i == 0) = true
  · rw [List.takeWhile_cons_of_pos (by simpa using h1)]
    by_cases h2 : i ≤ bip32MaxIndex
    · rw [List.takeWhile_cons_of_pos (by simpa using h2)]
      cases h3 : spkAt d i with
      | none => simp [mapWhile, h3]
      | some s => simp [mapWhile, h3, h1, h2]
    · rw [List.takeWhile_cons_of_neg (by simpa using h2)]
      simp [mapWhile, h2]
  · rw [List.takeWhile_cons_of_neg (by simpa using h1)]
    simp only [Bool.not_eq_true] at h1
    simp [mapWhile, h1]

/-- every index derived from the range `a..=b` is in it -/
theorem mem_range {d : D} {a m : Nat} {e : Nat × Script} (h : e ∈ rangeDescriptorSpks d (List.range' a m)) :
    a ≤ e.1 ∧ e.1 < a + m := by
  induction m generalizing a with
  | zero => cases h
  | succ m ih =>
    rw [List.range'_succ, range_step] at h
    by_cases hd : derivesAt d a = true
    · rw [if_pos hd] at h
      rcases List.mem_cons.1 h with rfl | h
      · simp
      · have := ih h; omega
    · rw [if_neg hd] at h; cases h

/-- the last index derived from `a..` below or at `t`, if any; when it is below `t` the derivation stopped there -/
theorem last_le (d : D) (t a m : Nat) (r0 : Option Nat) (hm : t < a + m) :
    ((rangeDescriptorSpks d (List.range' a m)).foldl (fun r e => if e.1 ≤ t then some e.1 else r) r0 = r0 ∧
        (a ≤ t → rangeDescriptorSpks d (List.range' a m) = [])) ∨
    ∃ i, (rangeDescriptorSpks d (List.range' a m)).foldl (fun r e => if e.1 ≤ t then some e.1 else r) r0 = some i ∧
      a ≤ i ∧ i ≤ t ∧ (i < t → ∀ n, i - a < n → ∀ m', t < a + m' → n ≤ m' →
        rangeDescriptorSpks d (List.range' a n) = rangeDescriptorSpks d (List.range' a m')) := by
  induction m generalizing a r0 with
  | zero => exact Or.inl ⟨rfl, fun _ => rfl⟩
  | succ m ih =>
    rw [List.range'_succ, range_step]
    by_cases hd : derivesAt d a = true
    · rw [if_pos hd, List.foldl_cons]
      by_cases hat : a ≤ t
      · simp only [hat, if_true]
        rcases ih (a + 1) (some a) (by omega) with ⟨h1, h2⟩ | ⟨i, h1, h2, h3, h4⟩
        · refine Or.inr ⟨a, h1, Nat.le_refl _, hat, fun hlt n hn m' hm' hnm => ?_⟩
          have hz := h2 (by omega)
          -- the derivation fails at `a + 1`
          have hstop : derivesAt d (a + 1) = false := by
            by_contra hc
            rw [Bool.not_eq_false] at hc
            obtain ⟨m2, rfl⟩ : ∃ m2, m = m2 + 1 := ⟨m - 1, by omega⟩
            rw [List.range'_succ, range_step, if_pos hc] at hz
            cases hz
          have hall : ∀ n', 0 < n' → rangeDescriptorSpks d (List.range' a n') = [(a, (spkAt d a).getD 0)] := by
            intro n' hn'
            obtain ⟨n2, rfl⟩ : ∃ n2, n' = n2 + 1 := ⟨n' - 1, by omega⟩
            rw [List.range'_succ, range_step, if_pos hd]
            cases n2 with
            | zero => rfl
            | succ n3 => rw [List.range'_succ, range_step, if_neg (by simp [hstop])]
          rw [hall n (by omega), hall m' (by omega)]
        · refine Or.inr ⟨i, h1, by omega, h3, fun hlt n hn m' hm' hnm => ?_⟩
          obtain ⟨n2, rfl⟩ : ∃ n2, n = n2 + 1 := ⟨n - 1, by omega⟩
          obtain ⟨m2, rfl⟩ : ∃ m2, m' = m2 + 1 := ⟨m' - 1, by omega⟩
          rw [List.range'_succ, List.range'_succ, range_step, range_step,
            h4 hlt n2 (by omega) m2 (by omega) (by omega)]
      · left
        simp only [hat, if_false]
        refine ⟨?_, fun h => h.elim⟩
        have : ∀ (l : List (Nat × Script)), (∀ e ∈ l, a < e.1) → l.foldl (fun r e => if e.1 ≤ t then some e.1 else r) r0 = r0 := by
          intro l
          induction l with
          | nil => intro _; rfl
          | cons e l ih2 =>
            intro hl
            have := hl e (by simp)
            rw [List.foldl_cons, if_neg (by omega)]
            exact ih2 (fun e' he' => hl e' (List.mem_cons_of_mem _ he'))
        exact this _ (fun e he => by have := mem_range he; omega)
    · rw [if_neg hd]
      exact Or.inl ⟨rfl, fun _ => rfl⟩
end derive

namespace KeychainIndex
variable {K D : Type} [LinearOrder K] [DescriptorOps D]

theorem reveal_of_parts {s : KeychainIndex K D} {k : K} {d : D} {t : Nat} {x'} {i : Nat}
    (hk : s.keychains.get k = some d) (h1 : numRevealed s k + s.lookaheadOf k ≤ u32Max)
    (h2 : (if hasWildcard d then t else 0) + s.lookaheadOf k ≤ u32Max)
    (h3 : storeSpks s.inner k (s.nextStoreIndex k) (rangeDescriptorSpks d (rangeIn (numRevealed s k + s.lookaheadOf k)
        ((if hasWildcard d then t else 0) + s.lookaheadOf k))) = some x')
    (h4 : revealedIndex (numRevealed s k) (s.lookaheadOf k) (if hasWildcard d then t else 0)
          (rangeDescriptorSpks d (rangeIn (numRevealed s k + s.lookaheadOf k)
          ((if hasWildcard d then t else 0) + s.lookaheadOf k))) = some i)
    (h5 : i + 1 ≤ u32Max) (h6 : ∀ old, s.lastRevealed.get k = some old → old < i) :
    s.revealToTarget k t = some ({ s with inner := x', lastRevealed := s.lastRevealed.insert k i },
          rangeDescriptorSpks d (rangeEx (numRevealed s k) (i + 1)), OMap.empty.insert k i) := by
  unfold revealToTarget
  rw [hk]
  simp only [Option.bind_eq_bind, Option.bind_some]
  rw [nextReveal_ok s k (by omega)]
  simp only [Option.bind_some]
  rw [addU32_ok h1]
  simp only [Option.bind_some]
  rw [addU32_ok h2]
  simp only [Option.bind_some]
  rw [h3]
  simp only [Option.bind_some]
  rw [h4]
  simp only
  cases hl : s.lastRevealed.get k with
  | none => simp [addU32_ok h5]
  | some old =>
    have := h6 old hl
    simp only [Option.bind_some]
    rw [if_neg (by simpa using this)]
    simp [addU32_ok h5]

/-- a second call with the index that was actually revealed does the same -/
theorem reveal_again {s : KeychainIndex K D} {k : K} {t : Nat} {r} (h : s.revealToTarget k t = some r) :
    (r.2.2 = OMap.empty ∧ r.1 = s) ∨ ∃ i, r.2.2 = OMap.empty.insert k i ∧ s.revealToTarget k i = some r := by
  obtain ⟨d, x', hk, h1, h2, h3, h4⟩ := reveal_spec h
  generalize ht : (if hasWildcard d then t else 0) = tt at h2 h3 h4
  unfold rangeIn at h3 h4
  have hrev := last_le d tt (numRevealed s k + s.lookaheadOf k)
    (tt + s.lookaheadOf k + 1 - (numRevealed s k + s.lookaheadOf k))
  rcases h4 with ⟨i, hi, hi1, hi2, rfl⟩ | ⟨hi, rfl⟩
  · right
    refine ⟨i, rfl, ?_⟩
    unfold revealedIndex at hi
    by_cases hin : numRevealed s k ≤ tt ∧ tt < numRevealed s k + s.lookaheadOf k
    · -- the target itself, within the lookahead
      have hit : i = tt := by
        rw [if_pos hin] at hi
        rcases hrev (some tt) (by omega) with ⟨e, -⟩ | ⟨j, -, e2, e3, -⟩
        · rw [hi] at e; exact Option.some.inj e
        · omega
      subst hit
      have ht' : (if hasWildcard d then i else 0) = i := by
        by_cases hw : hasWildcard d = true
        · rw [if_pos hw]
        · rw [if_neg hw] at ht ⊢; exact ht
      refine reveal_of_parts hk h1 ?_ ?_ ?_ hi1 hi2 <;> rw [ht']
      · exact h2
      · exact h3
      · unfold revealedIndex; exact hi
    · rw [if_neg hin] at hi
      by_cases hlt : tt < numRevealed s k
      · -- nothing to derive
        exfalso
        have hz : tt + s.lookaheadOf k + 1 - (numRevealed s k + s.lookaheadOf k) = 0 := by omega
        rw [hz] at hi; cases hi
      · rcases hrev none (by omega) with ⟨e, -⟩ | ⟨j, e1, e2, e3, e4⟩
        · rw [hi] at e; cases e
        · rw [hi] at e1
          have := Option.some.inj e1
          subst this
          have hw : (if hasWildcard d then i else 0) = i := by
            by_cases hw : hasWildcard d = true
            · rw [if_pos hw]
            · rw [if_neg hw] at ht ⊢; omega
          have hlist : rangeDescriptorSpks d (rangeIn (numRevealed s k + s.lookaheadOf k) (i + s.lookaheadOf k)) =
              rangeDescriptorSpks d (List.range' (numRevealed s k + s.lookaheadOf k)
                (tt + s.lookaheadOf k + 1 - (numRevealed s k + s.lookaheadOf k))) := by
            by_cases hit : i = tt
            · subst hit; rfl
            · exact e4 (by omega) _ (by omega) _ (by omega) (by omega)
          refine reveal_of_parts hk h1 ?_ ?_ ?_ hi1 hi2 <;> rw [hw]
          · omega
          · rw [hlist]; exact h3
          · rw [hlist]
            unfold revealedIndex
            rw [if_neg (by omega)]
            rcases last_le d i (numRevealed s k + s.lookaheadOf k)
              (tt + s.lookaheadOf k + 1 - (numRevealed s k + s.lookaheadOf k)) none (by omega) with ⟨f1, f2⟩ | ⟨j, f1, f2, f3, f4⟩
            · rw [f2 e2] at hi; cases hi
            · rw [f1]
              congr 1
              by_contra hne
              -- derivation would have stopped below `i`
              have hs := f4 (by omega) (j - (numRevealed s k + s.lookaheadOf k) + 1) (by omega)
                (tt + s.lookaheadOf k + 1 - (numRevealed s k + s.lookaheadOf k)) (by omega) (by omega)
              rw [← hs] at hi
              have hbound : ∀ e ∈ rangeDescriptorSpks d (List.range' (numRevealed s k + s.lookaheadOf k)
                  (j - (numRevealed s k + s.lookaheadOf k) + 1)), e.1 ≤ j := by
                intro e he
                have := mem_range he
                omega
              have : ∀ (l : List (Nat × Script)) (r0 : Option Nat), (∀ e ∈ l, e.1 ≤ j) → (∀ x ∈ r0, x ≤ j) →
                  ∀ x ∈ l.foldl (fun r e => if e.1 ≤ tt then some e.1 else r) r0, x ≤ j := by
                intro l
                induction l with
                | nil => intro r0 _ h0; exact h0
                | cons e l ih2 =>
                  intro r0 hl h0
                  rw [List.foldl_cons]
                  refine ih2 _ (fun e' he' => hl e' (List.mem_cons_of_mem _ he')) ?_
                  by_cases hc : e.1 ≤ tt
                  · rw [if_pos hc]; intro x hx; cases hx; exact hl e (by simp)
                  · rw [if_neg hc]; exact h0
              have := this _ none hbound (fun x hx => by cases hx) i (by rw [hi]; rfl)
              omega
  · left
    refine ⟨rfl, ?_⟩
    have hnil : rangeDescriptorSpks d (List.range' (numRevealed s k + s.lookaheadOf k)
        (tt + s.lookaheadOf k + 1 - (numRevealed s k + s.lookaheadOf k))) = [] := by
      by_cases hlt : tt < numRevealed s k
      · have hz : tt + s.lookaheadOf k + 1 - (numRevealed s k + s.lookaheadOf k) = 0 := by omega
        rw [hz]; rfl
      · unfold revealedIndex at hi
        rcases hrev (if numRevealed s k ≤ tt ∧ tt < numRevealed s k + s.lookaheadOf k then some tt else none) (by omega) with
          ⟨e, e2⟩ | ⟨j, e1, -⟩
        · rw [hi] at e
          by_cases hin : numRevealed s k ≤ tt ∧ tt < numRevealed s k + s.lookaheadOf k
          · rw [if_pos hin] at e; cases e
          · exact e2 (by omega)
        · rw [hi] at e1; cases e1
    rw [hnil] at h3
    have : x' = s.inner := (Option.some.inj h3).symm
    rw [this]


/-- the calls of `reveal_to_target` made by `apply_additions` -/
def revealAll (s : KeychainIndex K D) (l : List (K × Nat)) : Option (KeychainIndex K D) :=
  l.foldlM (fun s e => (s.revealToTarget e.1 e.2).map Prod.fst) s

theorem revealAll_cons (s : KeychainIndex K D) (e : K × Nat) (l : List (K × Nat)) :
    revealAll s (e :: l) = ((s.revealToTarget e.1 e.2).map Prod.fst).bind (fun s' => revealAll s' l) := by
  unfold revealAll; rw [List.foldlM_cons]; rfl

theorem revealAll_append (s : KeychainIndex K D) (l l' : List (K × Nat)) :
    revealAll s (l ++ l') = (revealAll s l).bind (fun s' => revealAll s' l') := by
  unfold revealAll; rw [List.foldlM_append]; rfl

/-- one step of the loop of `reveal_to_target_multi` -/
def multiStep (acc : KeychainIndex K D × OMap K (List (Nat × Script)) × DerivationAdditions K) (e : K × Nat) :
    Option (KeychainIndex K D × OMap K (List (Nat × Script)) × DerivationAdditions K) := do
  let r ← acc.1.revealToTarget e.1 e.2
  return (r.1, if r.2.2.isEmpty then acc.2 else (acc.2.1.insert e.1 r.2.1, DerivationAdditions.append acc.2.2 r.2.2))

theorem multiStep_eq {acc : KeychainIndex K D × OMap K (List (Nat × Script)) × DerivationAdditions K} {e : K × Nat} {r}
    (h : multiStep acc e = some r) : ∃ r', acc.1.revealToTarget e.1 e.2 = some r' ∧ r.1 = r'.1 ∧
      r.2 = if r'.2.2.isEmpty then acc.2 else (acc.2.1.insert e.1 r'.2.1, DerivationAdditions.append acc.2.2 r'.2.2) := by
  unfold multiStep at h
  cases hr : acc.1.revealToTarget e.1 e.2 with
  | none => rw [hr] at h; cases h
  | some r' => rw [hr] at h; cases h; exact ⟨r', rfl, rfl, rfl⟩

theorem foldlM_fst (l : List (K × Nat)) (acc : KeychainIndex K D × OMap K (List (Nat × Script)) × DerivationAdditions K) :
    (l.foldlM multiStep acc).map Prod.fst = revealAll acc.1 l := by
  induction l generalizing acc with
  | nil => rfl
  | cons e l ih =>
    rw [revealAll_cons, List.foldlM_cons]
    cases hr : acc.1.revealToTarget e.1 e.2 with
    | none => unfold multiStep; rw [hr]; rfl
    | some r' =>
      have : multiStep acc e = some (r'.1, if r'.2.2.isEmpty then acc.2 else (acc.2.1.insert e.1 r'.2.1, DerivationAdditions.append acc.2.2 r'.2.2)) := by
        unfold multiStep; rw [hr]; rfl
      rw [this]
      exact ih _

theorem applyAdditions_eq (s : KeychainIndex K D) (a : DerivationAdditions K) : s.applyAdditions a = revealAll s a.entries :=
  foldlM_fst a.entries (s, OMap.empty, OMap.empty)

theorem insert_end {V : Type} (m : OMap K V) (k : K) (v : V) (h : ∀ e ∈ m.entries, e.1 < k) :
    (m.insert k v).entries = m.entries ++ [(k, v)] := by
  show OMap.rawInsert k v m.entries = _
  generalize m.entries = l at h
  induction l with
  | nil => rfl
  | cons e l ih =>
    have h1 := h e (by simp)
    obtain ⟨k', v'⟩ := e
    unfold OMap.rawInsert
    have h1' : ¬ k < k' := not_lt.2 (le_of_lt h1)
    have h2' : ¬ k = k' := (ne_of_lt h1).symm
    simp only [h1', h2', if_false]
    rw [ih (fun e' he' => h e' (List.mem_cons_of_mem _ he'))]
    rfl

theorem revealMulti_again {s : KeychainIndex K D} {m : OMap K Nat} {r} (h : s.revealToTargetMulti m = some r) :
    s.applyAdditions r.2.2 = some r.1 := by
  have gen : ∀ (l : List (K × Nat)) (acc r : KeychainIndex K D × OMap K (List (Nat × Script)) × DerivationAdditions K),
      l.Pairwise (fun a b => a.1 < b.1) → (∀ e ∈ acc.2.2.entries, ∀ e' ∈ l, e.1 < e'.1) →
      revealAll s acc.2.2.entries = some acc.1 → l.foldlM multiStep acc = some r →
      revealAll s r.2.2.entries = some r.1 := by
    intro l
    induction l with
    | nil => intro acc r _ _ ha h; cases h; exact ha
    | cons e l ih =>
      intro acc r hs hlt ha h
      rw [List.foldlM_cons] at h
      cases hst : multiStep acc e with
      | none => rw [hst] at h; cases h
      | some acc' =>
        rw [hst] at h
        obtain ⟨r', h1, h2, h3⟩ := multiStep_eq hst
        have hs' := List.pairwise_cons.1 hs
        rcases reveal_again h1 with ⟨e1, e2⟩ | ⟨i, e1, e2⟩
        · refine ih acc' r hs'.2 ?_ ?_ h
          · rw [h3, e1]
            intro x hx y hy
            exact hlt x hx y (List.mem_cons_of_mem _ hy)
          · rw [h3, e1, h2, e2]; exact ha
        · have hne : (OMap.empty.insert e.1 i : DerivationAdditions K).isEmpty = false := rfl
          have hnone : acc.2.2.get e.1 = none := by
            cases hg : acc.2.2.get e.1 with
            | none => rfl
            | some v => exact absurd (hlt (e.1, v) (OMap.mem_entries.2 hg) e (by simp)) (lt_irrefl _)
          have hent : acc'.2.2.entries = acc.2.2.entries ++ [(e.1, i)] := by
            rw [h3, e1, hne]
            show (DerivationAdditions.append _ _).entries = _
            rw [DerivationAdditions.append_single _ _ _ (fun old ho => by rw [hnone] at ho; cases ho)]
            exact insert_end _ _ _ (fun x hx => hlt x hx e (by simp))
          refine ih acc' r hs'.2 ?_ ?_ h
          · rw [hent]
            intro x hx y hy
            rcases List.mem_append.1 hx with hx | hx
            · exact hlt x hx y (List.mem_cons_of_mem _ hy)
            · have : x = (e.1, i) := by simpa using hx
              subst this
              exact hs'.1 y hy
          · rw [hent, revealAll_append, ha]
            show revealAll acc.1 [(e.1, i)] = some acc'.1
            rw [revealAll_cons]
            show ((acc.1.revealToTarget e.1 i).map Prod.fst).bind _ = _
            rw [e2, h2]; rfl
  rw [applyAdditions_eq]
  exact gen m.entries (s, OMap.empty, OMap.empty) r m.sorted (fun e he => by cases he) rfl h

theorem reveal_replay {s : KeychainIndex K D} {k : K} {t : Nat} {r} (h : s.revealToTarget k t = some r) :
    s.applyAdditions r.2.2 = some r.1 := by
  rw [applyAdditions_eq]
  rcases reveal_again h with ⟨e1, e2⟩ | ⟨i, e1, e2⟩
  · rw [e1, e2]; rfl
  · rw [e1]
    show revealAll s [(k, i)] = _
    rw [revealAll_cons]
    show ((s.revealToTarget k i).map Prod.fst).bind _ = _
    rw [e2]; rfl

/-! ## states that differ in the marks only -/

end KeychainIndex

/-- equal up to the set of unused indices -/
structure SpkIndex.Sim {I : Type} [LinearOrder I] (x y : SpkIndex I) : Prop where
  spks : x.spks = y.spks
  spkIndices : x.spkIndices = y.spkIndices
  txouts : x.txouts = y.txouts
  spkTxouts : x.spkTxouts = y.spkTxouts

namespace KeychainIndex
variable {K D : Type} [LinearOrder K] [DescriptorOps D]

/-- equal up to the set of unused indices -/
structure Sim (s s' : KeychainIndex K D) : Prop where
  inner : SpkIndex.Sim s.inner s'.inner
  keychains : s.keychains = s'.keychains
  lastRevealed : s.lastRevealed = s'.lastRevealed
  lookahead : s.lookahead = s'.lookahead

theorem Sim.refl (s : KeychainIndex K D) : Sim s s := ⟨⟨rfl, rfl, rfl, rfl⟩, rfl, rfl, rfl⟩
theorem Sim.trans {a b c : KeychainIndex K D} (h : Sim a b) (h' : Sim b c) : Sim a c :=
  ⟨⟨h.inner.spks.trans h'.inner.spks, h.inner.spkIndices.trans h'.inner.spkIndices, h.inner.txouts.trans h'.inner.txouts,
    h.inner.spkTxouts.trans h'.inner.spkTxouts⟩, h.keychains.trans h'.keychains, h.lastRevealed.trans h'.lastRevealed,
    h.lookahead.trans h'.lookahead⟩

/-- the second index has no script marked used without an output -/
def NoMarks (s : KeychainIndex K D) : Prop :=
  ∀ e, s.inner.spks.contains e = true → (∀ o, s.inner.spkTxouts.mem (toLex (e, o)) = false) → s.inner.unused.mem e = true

theorem insertSpk_sim {I : Type} [LinearOrder I] {x y : SpkIndex I} (h : SpkIndex.Sim x y) (i : I) (s : Script) :
    SpkIndex.Sim (x.insertSpk i s).1 (y.insertSpk i s).1 ∧ (x.insertSpk i s).2 = (y.insertSpk i s).2 := by
  unfold SpkIndex.insertSpk
  rw [← h.spkIndices]
  cases x.spkIndices.get s with
  | none => exact ⟨⟨by simp only [h.spks], rfl, h.txouts, h.spkTxouts⟩, rfl⟩
  | some j => exact ⟨h, rfl⟩

theorem storeSpks_sim {x y : SpkIndex (K ×ₗ Nat)} (h : SpkIndex.Sim x y) {k : K} {f : Nat} {l : List (Nat × Script)} {x'}
    (hx : storeSpks x k f l = some x') : ∃ y', storeSpks y k f l = some y' ∧ SpkIndex.Sim x' y' := by
  induction l generalizing x y with
  | nil => cases hx; exact ⟨y, rfl, h⟩
  | cons e l ih =>
    obtain ⟨i, spk⟩ := e
    unfold storeSpks at hx ⊢
    by_cases hf : f ≤ i
    · rw [if_pos hf] at hx ⊢
      obtain ⟨h1, h2⟩ := insertSpk_sim h (toLex (k, i)) spk
      simp only at hx ⊢
      rw [← h2]
      by_cases hb : (x.insertSpk (toLex (k, i)) spk).2 = true
      · rw [if_pos hb] at hx ⊢; exact ih h1 hx
      · rw [if_neg hb] at hx; cases hx
    · rw [if_neg hf] at hx ⊢; exact ih h hx

theorem reveal_sim {s s' : KeychainIndex K D} (h : Sim s s') {k : K} {t : Nat} {r} (hr : s.revealToTarget k t = some r) :
    ∃ r', s'.revealToTarget k t = some r' ∧ Sim r.1 r'.1 ∧ r.2 = r'.2 := by
  have e1 : numRevealed s' k = numRevealed s k := by unfold numRevealed lastRevealedIndex; rw [h.lastRevealed]
  have e2 : s'.lookaheadOf k = s.lookaheadOf k := by unfold lookaheadOf; rw [h.lookahead]
  have e3 : s'.nextStoreIndex k = s.nextStoreIndex k := by unfold nextStoreIndex; rw [h.inner.spks]
  obtain ⟨d, x', hk, h1, h2, h3, h4⟩ := reveal_spec hr
  obtain ⟨y', hy, hs⟩ := storeSpks_sim h.inner h3
  rcases h4 with ⟨i, hi, hi1, hi2, rfl⟩ | ⟨hi, rfl⟩
  · refine ⟨_, reveal_of_parts (x' := y') (i := i) (h.keychains ▸ hk) ?_ ?_ ?_ ?_ hi1 ?_, ?_, ?_⟩
    · rw [e1, e2]; exact h1
    · rw [e2]; exact h2
    · rw [e1, e2, e3]; exact hy
    · rw [e1, e2]; exact hi
    · rw [← h.lastRevealed]; exact hi2
    · exact ⟨hs, h.keychains, by simp only [h.lastRevealed], h.lookahead⟩
    · rw [e1]
  · refine ⟨({ s' with inner := y' }, [], OMap.empty), ?_, ⟨hs, h.keychains, h.lastRevealed, h.lookahead⟩, rfl⟩
    unfold revealToTarget
    rw [← h.keychains, hk]
    simp only [Option.bind_eq_bind, Option.bind_some]
    rw [nextReveal_ok s' k (by rw [e1]; omega)]
    simp only [Option.bind_some]
    rw [e1, e2, e3, addU32_ok h1]
    simp only [Option.bind_some]
    rw [addU32_ok h2]
    simp only [Option.bind_some]
    rw [hy]
    simp only [Option.bind_some]
    rw [hi]
    simp [rangeEx]
    rfl

theorem revealAll_sim {s s' : KeychainIndex K D} (h : Sim s s') {l : List (K × Nat)} {r} (hr : revealAll s l = some r) :
    ∃ r', revealAll s' l = some r' ∧ Sim r r' := by
  induction l generalizing s s' with
  | nil => cases hr; exact ⟨s', rfl, h⟩
  | cons e l ih =>
    rw [revealAll_cons] at hr ⊢
    cases h1 : s.revealToTarget e.1 e.2 with
    | none => rw [h1] at hr; cases hr
    | some r1 =>
      rw [h1] at hr
      obtain ⟨r1', h1', hs, -⟩ := reveal_sim h h1
      rw [h1']
      exact ih hs hr

theorem innerScan_sim {I : Type} [LinearOrder I] {x y : SpkIndex I} (h : SpkIndex.Sim x y) (o : OutPoint) (t : TxOut) :
    SpkIndex.Sim (x.scanTxout o t).1 (y.scanTxout o t).1 ∧ (x.scanTxout o t).2 = (y.scanTxout o t).2 := by
  unfold SpkIndex.scanTxout
  rw [← h.spkIndices]
  cases x.spkIndices.get t.spk with
  | none => exact ⟨h, rfl⟩
  | some i => exact ⟨⟨h.spks, rfl, by simp only [h.txouts], by simp only [h.spkTxouts]⟩, rfl⟩

theorem scanTxout_sim {s s' : KeychainIndex K D} (h : Sim s s') {o : OutPoint} {t : TxOut} {r} (hr : s.scanTxout o t = some r) :
    ∃ r', s'.scanTxout o t = some r' ∧ Sim r.1 r'.1 ∧ r.2 = r'.2 := by
  obtain ⟨h1, h2⟩ := innerScan_sim h.inner o t
  have hs : Sim ({ s with inner := (s.inner.scanTxout o t).1 } : KeychainIndex K D) { s' with inner := (s'.inner.scanTxout o t).1 } :=
    ⟨h1, h.keychains, h.lastRevealed, h.lookahead⟩
  unfold scanTxout at hr ⊢
  simp only at hr ⊢
  rw [← h2]
  cases hi : (s.inner.scanTxout o t).2 with
  | none => rw [hi] at hr; cases hr; exact ⟨_, rfl, hs, rfl⟩
  | some i =>
    rw [hi] at hr
    simp only [Option.map_eq_some_iff] at hr
    obtain ⟨r1, hr1, rfl⟩ := hr
    obtain ⟨r1', h1', hs', he⟩ := reveal_sim hs hr1
    refine ⟨(r1'.1, r1'.2.2), ?_, hs', by rw [he]⟩
    simp only [h1', Option.map_some]

theorem scan_sim {s s' : KeychainIndex K D} (h : Sim s s') {l : List (OutPoint × TxOut)} {r} (hr : s.scan l = some r) :
    ∃ r', s'.scan l = some r' ∧ Sim r.1 r'.1 ∧ r.2 = r'.2 := by
  have gen : ∀ (l : List (OutPoint × TxOut)) (s s' : KeychainIndex K D) (a : DerivationAdditions K) r, Sim s s' →
      l.foldlM (fun (acc : KeychainIndex K D × DerivationAdditions K) (e : OutPoint × TxOut) => do
        let r ← acc.1.scanTxout e.1 e.2
        return (r.1, DerivationAdditions.append acc.2 r.2)) (s, a) = some r →
      ∃ r', l.foldlM (fun (acc : KeychainIndex K D × DerivationAdditions K) (e : OutPoint × TxOut) => do
        let r ← acc.1.scanTxout e.1 e.2
        return (r.1, DerivationAdditions.append acc.2 r.2)) (s', a) = some r' ∧ Sim r.1 r'.1 ∧ r.2 = r'.2 := by
    intro l
    induction l with
    | nil => intro s s' a r hs h; cases h; exact ⟨_, rfl, hs, rfl⟩
    | cons e l ih =>
      intro s s' a r hs h
      rw [List.foldlM_cons] at h ⊢
      cases h1 : s.scanTxout e.1 e.2 with
      | none => simp only [h1, Option.bind_eq_bind, Option.bind_none] at h; cases h
      | some r1 =>
        obtain ⟨r1', h1', hs', he⟩ := scanTxout_sim hs h1
        simp only [h1, Option.bind_eq_bind, Option.bind_some] at h
        simp only [h1', Option.bind_eq_bind, Option.bind_some, ← he]
        exact ih _ _ _ _ hs' h
  exact gen l s s' _ r h hr

/-! ## no marks -/

theorem storeSpks_noMarks {x x' : SpkIndex (K ×ₗ Nat)} {k : K} {f : Nat} {l : List (Nat × Script)}
    (h : ∀ e, x.spks.contains e = true → (∀ o, x.spkTxouts.mem (toLex (e, o)) = false) → x.unused.mem e = true)
    (hx : storeSpks x k f l = some x') :
    ∀ e, x'.spks.contains e = true → (∀ o, x'.spkTxouts.mem (toLex (e, o)) = false) → x'.unused.mem e = true := by
  induction l generalizing x with
  | nil => cases hx; exact h
  | cons e l ih =>
    obtain ⟨i, spk⟩ := e
    unfold storeSpks at hx
    by_cases hf : f ≤ i
    · rw [if_pos hf] at hx
      simp only at hx
      by_cases hb : (x.insertSpk (toLex (k, i)) spk).2 = true
      · rw [if_pos hb] at hx
        refine ih ?_ hx
        cases hg : x.spkIndices.get spk with
        | none =>
          rw [SpkIndex.insertSpk_none hg]
          intro e he ho
          rw [OSet.mem_add]
          by_cases hee : e = toLex (k, i)
          · simp [hee]
          · have : x.spks.contains e = true := by
              unfold OMap.contains at he ⊢
              rwa [OMap.get_insert, if_neg hee] at he
            simp [h e this ho]
        | some j => rw [SpkIndex.insertSpk_some hg]; exact h
      · rw [if_neg hb] at hx; cases hx
    · rw [if_neg hf] at hx; exact ih h hx

theorem reveal_noMarks {s : KeychainIndex K D} (h : NoMarks s) {k : K} {t : Nat} {r} (hr : s.revealToTarget k t = some r) :
    NoMarks r.1 := by
  obtain ⟨d, x', hk, h1, h2, h3, h4⟩ := reveal_spec hr
  have := storeSpks_noMarks h h3
  rcases h4 with ⟨i, hi, hi1, hi2, rfl⟩ | ⟨hi, rfl⟩ <;> exact this

theorem revealAll_noMarks {s : KeychainIndex K D} (h : NoMarks s) {l : List (K × Nat)} {r} (hr : revealAll s l = some r) :
    NoMarks r := by
  induction l generalizing s with
  | nil => cases hr; exact h
  | cons e l ih =>
    rw [revealAll_cons] at hr
    cases h1 : s.revealToTarget e.1 e.2 with
    | none => rw [h1] at hr; cases hr
    | some r1 => rw [h1] at hr; exact ih (reveal_noMarks h h1) hr

theorem scanTxout_noMarks {s : KeychainIndex K D} (h : NoMarks s) {o : OutPoint} {t : TxOut} {r} (hr : s.scanTxout o t = some r) :
    NoMarks r.1 := by
  have hs : NoMarks ({ s with inner := (s.inner.scanTxout o t).1 } : KeychainIndex K D) := by
    cases hg : s.inner.spkIndices.get t.spk with
    | none => rw [SpkIndex.scanTxout_none hg]; exact h
    | some i =>
      rw [SpkIndex.scanTxout_some hg]
      intro e he ho
      have hne : e ≠ i := by
        rintro rfl
        have := ho o
        rw [OSet.mem_add] at this
        simp at this
      rw [OSet.mem_remove]
      have h2 : ∀ o', s.inner.spkTxouts.mem (toLex (e, o')) = false := by
        intro o'
        have := ho o'
        rw [OSet.mem_add, Bool.or_eq_false_iff] at this
        exact this.2
      simp [hne, h e he h2]
  unfold scanTxout at hr
  simp only at hr
  cases hi : (s.inner.scanTxout o t).2 with
  | none => rw [hi] at hr; cases hr; exact hs
  | some i =>
    rw [hi] at hr
    simp only [Option.map_eq_some_iff] at hr
    obtain ⟨r1, hr1, rfl⟩ := hr
    exact reveal_noMarks hs hr1

theorem scan_noMarks {s : KeychainIndex K D} (h : NoMarks s) {l : List (OutPoint × TxOut)} {r} (hr : s.scan l = some r) :
    NoMarks r.1 := by
  induction l generalizing s r with
  | nil => cases hr; exact h
  | cons e l ih =>
    obtain ⟨r1, r2, h1, h2, h3⟩ := scan_cons hr
    rw [h3]
    exact ih (scanTxout_noMarks h h1) h2

end KeychainIndex
end Verif
