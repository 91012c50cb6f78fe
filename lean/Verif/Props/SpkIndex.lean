import Verif.Lemmas.SpkIndex2
import Verif.Props.Demo

/-!
# Properties C30–C32: `SpkTxOutIndex`

Histories `h` are lists of calls, oldest first, on a new index; `SpkIndex.run h` is the index after them.
-/

namespace Verif.Props
open Verif Verif.Spec Verif.SpkIndex
variable {I : Type} [LinearOrder I]

/-- scripts 1 and 2 are inserted, two outputs of script 1 and one unknown output are scanned, index 8 is reserved -/
def exSpkHist : List (SpkIndex.Op Nat) :=
  [.scanTxout ⟨dId 1, 0⟩ ⟨30, 2⟩, .insertSpk 7 1, .insertSpk 8 2, .insertSpk 9 3, .insertSpk 5 1,
   .scanTxout ⟨dId 0, 0⟩ ⟨50, 1⟩, .scanTxout ⟨dId 4, 0⟩ ⟨40, 1⟩, .scanTxout ⟨dId 6, 0⟩ ⟨44, 99⟩, .markUsed 8]

/-! ## C30 -/

/-- **C30** the index of a script is the one it was first inserted with -/
theorem C30_index_of_spk (h : List (SpkIndex.Op I)) (s : Script) (i : I) :
    (run h).indexOfSpk s = some i ↔ FirstIndex h s i := run_indices h s i

/-- **C30** `insert_spk` returns `false`, and changes nothing, iff the script is already there -/
theorem C30_insert_spk_result (h : List (SpkIndex.Op I)) (i : I) (s : Script) :
    (((run h).insertSpk i s).2 = false ↔ ∃ j, FirstIndex h s j) ∧
    (((run h).insertSpk i s).2 = false → ((run h).insertSpk i s).1 = run h) := by
  cases hg : (run h).spkIndices.get s with
  | none =>
    rw [insertSpk_none hg]
    have := (run_indices_none h s).1 hg
    simp [this]
  | some k =>
    rw [insertSpk_some hg]
    simp only [true_iff, forall_const, and_true]
    exact ⟨k, (run_indices h s k).1 hg⟩

/-- **C30** the script at an index: whatever `spk_at_index` returns was inserted with that index, it returns something iff
the index was given to a script, and it is the only such script if no index is given to two scripts -/
theorem C30_spk_at_index (h : List (SpkIndex.Op I)) (i : I) (s : Script) :
    ((run h).spkAtIndex i = some s → FirstIndex h s i) ∧
    ((∃ s, (run h).spkAtIndex i = some s) ↔ Inserted h i) ∧
    (FreshIndices h → ((run h).spkAtIndex i = some s ↔ FirstIndex h s i)) := by
  refine ⟨run_spks_first h i s, run_spks_isSome h i, fun hf => ⟨run_spks_first h i s, fun hs => ?_⟩⟩
  obtain ⟨s', hs'⟩ := (run_spks_isSome h i).2 ⟨s, hs⟩
  rw [hf i s s' hs (run_spks_first h i s' hs')]
  exact hs'

/-- **C30** the output found at an outpoint is exactly the last one scanned there while its script was inserted -/
theorem C30_txout_exact (h : List (SpkIndex.Op I)) (o : OutPoint) (i : I) (t : TxOut) :
    (run h).txout o = some (i, t) ↔ LastMatched h o t i := run_txouts h o i t

/-- **C30** if an outpoint always comes with the same output, what is found is exactly what was scanned after its script was
inserted -/
theorem C30_txout_honest (h : List (SpkIndex.Op I)) (hh : HonestScans h) (o : OutPoint) (i : I) (t : TxOut) :
    (run h).txout o = some (i, t) ↔ Matched h o t i := by
  rw [C30_txout_exact, lastMatched_of_honest hh]

/-- **C30** `txouts` lists the found outputs in order of outpoint, each once -/
theorem C30_txouts_listing (h : List (SpkIndex.Op I)) :
    (∀ i o t, (i, o, t) ∈ (run h).allTxouts ↔ (run h).txout o = some (i, t)) ∧
    (run h).allTxouts.Pairwise (fun a b => a.2.1 < b.2.1) := by
  constructor
  · intro i o t
    unfold allTxouts txout
    rw [← OMap.mem_entries, List.mem_map]
    constructor
    · rintro ⟨⟨o', i', t'⟩, he, h1⟩; cases h1; exact he
    · exact fun he => ⟨(o, i, t), he, rfl⟩
  · unfold allTxouts
    rw [List.pairwise_map]
    exact (run h).txouts.sorted

/-- **C30** `txouts_in_tx` lists exactly the found outputs of that transaction -/
theorem C30_txouts_in_tx (h : List (SpkIndex.Op I)) (txid : Txid) (i : I) (o : OutPoint) (t : TxOut) :
    (i, o, t) ∈ (run h).txoutsInTx txid ↔ (run h).txout o = some (i, t) ∧ o.txid = txid := by
  unfold txoutsInTx txout
  rw [← OMap.mem_entries, List.mem_map]
  have key : ((decide ((⟨txid, ⟨0, by decide⟩⟩ : OutPoint) ≤ o) && decide (o ≤ (⟨txid, ⟨2 ^ 32 - 1, by decide⟩⟩ : OutPoint))) = true) ↔
      o.txid = txid := by
    simp only [Bool.and_eq_true, decide_eq_true_eq]
    show (toLex (txid, (⟨0, by decide⟩ : Vout)) : Txid ×ₗ Vout) ≤ toLex (o.txid, o.vout) ∧
      (toLex (o.txid, o.vout) : Txid ×ₗ Vout) ≤ toLex (txid, (⟨2 ^ 32 - 1, by decide⟩ : Vout)) ↔ _
    rw [Prod.Lex.toLex_le_toLex, Prod.Lex.toLex_le_toLex]
    constructor
    · rintro ⟨h1 | ⟨h1, -⟩, h2 | ⟨h2, -⟩⟩
      · exact absurd h1 (not_lt.2 (le_of_lt h2))
      · exact h2
      · exact h1.symm
      · exact h2
    · intro h1
      have := o.vout.2
      refine ⟨Or.inr ⟨h1.symm, Nat.zero_le _⟩, Or.inr ⟨h1, ?_⟩⟩
      show o.vout.val ≤ 2 ^ 32 - 1
      omega
  constructor
  · rintro ⟨⟨o', i', t'⟩, he, h1⟩
    cases h1
    rw [List.mem_filter] at he
    exact ⟨he.1, key.1 he.2⟩
  · rintro ⟨h1, h2⟩
    exact ⟨(o, i, t), List.mem_filter.2 ⟨h1, key.2 h2⟩, rfl⟩

/-- **C30** `outputs_in_range` yields, in order, exactly the pairs of an index in the range and an outpoint ever found with
it; it panics exactly when `BTreeSet::range` does for the index range -/
theorem C30_outputs_in_range (h : List (SpkIndex.Op I)) (lo hi : Bound I) :
    ((run h).outputsInRange lo hi = none ↔ Bound.rangePanics lo hi = true) ∧
    ∀ l, (run h).outputsInRange lo hi = some l →
      (∀ i o, (i, o) ∈ l ↔ (∃ t, Matched h o t i) ∧ lo.geB i = true ∧ hi.leB i = true) ∧
      l.Pairwise (fun a b => a.1 < b.1 ∨ a.1 = b.1 ∧ a.2 < b.2) := by
  constructor
  · unfold outputsInRange
    simp only []
    rw [mapBound_panics]
    by_cases hp : Bound.rangePanics lo hi = true <;> simp [hp]
  · intro l hl
    refine ⟨fun i o => ?_, ?_⟩
    · rw [mem_outputsInRange hl, run_spkTxouts]
    · unfold outputsInRange at hl
      simp only [] at hl
      by_cases hp : Bound.rangePanics (mapBound lo minOutPoint maxOutPoint) (mapBound hi maxOutPoint minOutPoint) = true
      · rw [if_pos hp] at hl; cases hl
      · rw [if_neg hp] at hl
        rw [← Option.some.inj hl, List.pairwise_map]
        apply List.Pairwise.filter
        refine (OSet.toList_sorted _).imp ?_
        intro a b hab
        exact (Prod.Lex.lt_iff).1 hab

/-- **C30** an inserted index is used iff an output was found with it or it is reserved (no index given to two scripts) -/
theorem C30_is_used (h : List (SpkIndex.Op I)) (hf : FreshIndices h) (i : I) (hi : Inserted h i) :
    (run h).isUsed i = true ↔ (∃ o t, Matched h o t i) ∨ Marked h i := by
  unfold isUsed
  have := run_unused h hf i
  cases hm : (run h).unused.mem i with
  | true =>
    obtain ⟨-, h2, h3⟩ := this.1 hm
    simp [h3]
    intro o t hx; exact h2 ⟨o, t, hx⟩
  | false =>
    simp only [Bool.not_false, true_iff]
    by_contra hn
    rw [not_or] at hn
    rw [this.2 ⟨hi, hn.1, hn.2⟩] at hm; cases hm

/-- **C30** `unused_spks` yields, in order, the inserted indices of the range that are not used, with their scripts; the
`expect` inside never fails -/
theorem C30_unused_spks (h : List (SpkIndex.Op I)) (hf : FreshIndices h) (lo hi : Bound I) :
    ((run h).unusedSpks lo hi = none ↔ Bound.rangePanics lo hi = true) ∧
    ∀ l, (run h).unusedSpks lo hi = some l →
      (∀ i s, (i, s) ∈ l ↔ (∃ s', s = some s' ∧ FirstIndex h s' i) ∧ (run h).isUsed i = false ∧
        lo.geB i = true ∧ hi.leB i = true) ∧
      l.Pairwise (fun a b => a.1 < b.1) := by
  constructor
  · unfold unusedSpks
    by_cases hp : Bound.rangePanics lo hi = true <;> simp [hp]
  · intro l hl
    unfold unusedSpks at hl
    by_cases hp : Bound.rangePanics lo hi = true
    · rw [if_pos hp] at hl; cases hl
    · rw [if_neg hp] at hl
      rw [← Option.some.inj hl]
      constructor
      · intro i s
        simp only [List.mem_map, List.mem_filter, Bool.and_eq_true]
        constructor
        · rintro ⟨j, ⟨hj, h1, h2⟩, he⟩
          cases he
          have hm := OSet.mem_toList.1 hj
          obtain ⟨s', hs'⟩ := (run_unused h hf i).1 hm |>.1
          have h3 := (C30_spk_at_index h i s').2.2 hf |>.2 hs'
          exact ⟨⟨s', h3, hs'⟩, by unfold isUsed; rw [hm]; rfl, h1, h2⟩
        · rintro ⟨⟨s', rfl, hs'⟩, h1, h2, h3⟩
          refine ⟨i, ⟨OSet.mem_toList.2 ?_, h2, h3⟩, ?_⟩
          · unfold isUsed at h1; simpa using h1
          · rw [(C30_spk_at_index h i s').2.2 hf |>.2 hs']
      · rw [List.pairwise_map]
        exact List.Pairwise.filter _ (OSet.toList_sorted _)

/-- **C30** the `expect` in `unused_spks` never fails, whatever indices were used -/
theorem C30_unused_spks_no_panic (h : List (SpkIndex.Op I)) (i : I) (hu : (run h).unused.mem i = true) :
    ∃ s, (run h).spkAtIndex i = some s := by
  apply (run_spks_isSome h i).2
  induction h using List.reverseRecOn with
  | nil => simp [run, SpkIndex.empty] at hu
  | append_singleton h e ih =>
    rw [run_snoc] at hu
    rw [inserted_snoc]
    cases e with
    | insertSpk j s =>
      change ((run h).insertSpk j s).1.unused.mem i = true at hu
      cases hg : (run h).spkIndices.get s with
      | some k => rw [insertSpk_some hg] at hu; exact Or.inl (ih hu)
      | none =>
        rw [insertSpk_none hg] at hu
        change (OSet.add _ _).mem _ = true at hu
        rw [mem_add_iff] at hu
        rcases hu with rfl | hu
        · exact Or.inr ⟨s, (run_indices_none h s).1 hg, rfl⟩
        · exact Or.inl (ih hu)
    | scanTxout o t =>
      change ((run h).scanTxout o t).1.unused.mem i = true at hu
      cases hg : (run h).spkIndices.get t.spk with
      | none => rw [scanTxout_none hg] at hu; exact Or.inl (ih hu)
      | some k =>
        rw [scanTxout_some hg] at hu
        change (OSet.remove _ _).mem _ = true at hu
        rw [OSet.mem_remove, Bool.and_eq_true] at hu
        exact Or.inl (ih hu.2)
    | markUsed j =>
      change (OSet.remove _ _).mem _ = true at hu
      rw [OSet.mem_remove, Bool.and_eq_true] at hu
      exact Or.inl (ih hu.2)
    | unmarkUsed j =>
      change ((run h).unmarkUsed j).1.unused.mem i = true at hu
      unfold unmarkUsed at hu
      split_ifs at hu with h1 h2
      · exact Or.inl (ih hu)
      · exact Or.inl (ih hu)
      · change (OSet.add _ _).mem _ = true at hu
        rw [mem_add_iff] at hu
        rcases hu with rfl | hu
        · refine Or.inl ((run_spks_isSome h i).1 (OMap.contains_iff.1 ?_))
          cases h' : (run h).spks.contains i <;> simp_all
        · exact Or.inl (ih hu)

/-- **C30** `scan` of many outputs is scanning them one by one, and it returns exactly the indices that matched -/
theorem C30_scan (h : List (SpkIndex.Op I)) (l : List (OutPoint × TxOut)) :
    ((run h).scan l).1 = run (h ++ l.map (fun e => .scanTxout e.1 e.2)) ∧
    ∀ i, i ∈ ((run h).scan l).2.toList ↔ ∃ e ∈ l, FirstIndex h e.2.spk i := by
  refine ⟨scan_run h l, fun i => ?_⟩
  rw [OSet.mem_toList, (scan_fields _ l).2.2.2.2 i]
  simp only [run_indices]

/-- **C30** after scanning a transaction, each of its outputs that pays an inserted script is found -/
theorem C30_scan_tx_finds (h : List (SpkIndex.Op I)) (tx : Tx) (n : Nat) (x : TxOut) (i : I)
    (hx : tx.output[n]? = some x) (hi : FirstIndex h x.spk i) :
    ((run h).scan tx.txouts).1.txout ⟨tx.txid, Fin.ofNat _ n⟩ = some (i, x) := by
  have hn : n < 2 ^ 32 := by
    have := (List.getElem?_eq_some_iff.1 hx).1
    have := tx.small
    omega
  have hm : ((⟨tx.txid, Fin.ofNat _ n⟩ : OutPoint), x) ∈ tx.txouts := by
    rw [mem_txouts]; refine ⟨rfl, ?_⟩
    show tx.output[n % 2 ^ 32]? = some x
    rw [Nat.mod_eq_of_lt hn]; exact hx
  unfold txout
  rw [scan_txouts]
  · exact Or.inl ⟨hm, (run_indices h x.spk i).2 hi⟩
  · intro o t t' h1 h2
    have a := (mem_txouts.1 h1).2
    rw [(mem_txouts.1 h2).2] at a
    exact (Option.some.inj a).symm

/-- **C30** `mark_used` returns whether the index was unused, `unmark_used` whether it becomes unused; an index with a found
output never becomes unused -/
theorem C30_mark_unmark (h : List (SpkIndex.Op I)) (i : I) (hi : Inserted h i) :
    ((run h).markUsed i).2 = !(run h).isUsed i ∧
    ((run h).markUsed i).1.isUsed i = true ∧
    ((∃ o t, Matched h o t i) → ((run h).unmarkUsed i) = (run h, false)) ∧
    ((¬ ∃ o t, Matched h o t i) → ((run h).unmarkUsed i).1.isUsed i = false ∧ ((run h).unmarkUsed i).2 = (run h).isUsed i) := by
  have hc : (run h).spks.contains i = true := OMap.contains_iff.2 ((run_spks_isSome h i).2 hi)
  refine ⟨by simp [markUsed, isUsed], ?_, ?_, ?_⟩
  · show (!(OSet.remove _ _).mem _) = true
    rw [OSet.mem_remove]; simp
  · intro hm
    have : (run h).hasOutputs i = true := by
      rw [hasOutputs_iff]; simp only [run_spkTxouts]; exact hm
    unfold unmarkUsed; rw [hc, this]; rfl
  · intro hm
    have : (run h).hasOutputs i = false := by
      cases hh : (run h).hasOutputs i with
      | false => rfl
      | true => rw [hasOutputs_iff] at hh; simp only [run_spkTxouts] at hh; exact absurd hh hm
    unfold unmarkUsed; rw [hc, this]
    constructor
    · show (!(OSet.add _ _).mem _) = false
      rw [mem_add_iff.2 (Or.inl rfl)]; rfl
    · rfl

/-- Deviation from the documentation of `is_used`: an index that was never inserted counts as used. -/
theorem C30_never_inserted_is_used : (run ([] : List (SpkIndex.Op Nat))).isUsed 3 = true := by decide

/-- Deviation from the documentation of `unused_spks` ("never scanned a transaction output with it"): giving an index a second
script makes it unused although an output was found with it, and `spk_at_index` forgets the first script, which is still scanned
for.  This is why `C30_is_used` asks for `FreshIndices`. -/
theorem C30_index_reuse_forgets : ∃ h : List (SpkIndex.Op Nat), Matched h ⟨dId 0, 0⟩ ⟨50, 1⟩ 7 ∧ (run h).isUsed 7 = false ∧
    (run h).spkAtIndex 7 = some 2 ∧ (run h).indexOfSpk 1 = some 7 :=
  ⟨[.insertSpk 7 1, .scanTxout ⟨dId 0, 0⟩ ⟨50, 1⟩, .insertSpk 7 2],
   ⟨[.insertSpk 7 1], [.insertSpk 7 2], rfl, [], [], rfl, by simp⟩, by decide, by decide, by decide⟩

example : (run exSpkHist).txout ⟨dId 0, 0⟩ = some (7, ⟨50, 1⟩) ∧ (run exSpkHist).txout ⟨dId 1, 0⟩ = none ∧
    (run exSpkHist).isUsed 7 = true ∧ (run exSpkHist).isUsed 8 = true ∧ (run exSpkHist).isUsed 9 = false ∧
    (run exSpkHist).unusedSpks .unbounded .unbounded = some [(9, some 3)] := by decide

example : FreshIndices exSpkHist ∧ HonestScans exSpkHist := by
  constructor
  · intro i s s' h1 h2
    rw [← run_indices] at h1 h2
    have key : ∀ e ∈ (run exSpkHist).spkIndices.entries, ∀ e' ∈ (run exSpkHist).spkIndices.entries, e.2 = e'.2 → e.1 = e'.1 := by decide
    exact key _ (OMap.mem_entries.2 h1) _ (OMap.mem_entries.2 h2) rfl
  · have key : ∀ a ∈ exSpkHist, ∀ b ∈ exSpkHist, ∀ o, ∀ x, a = .scanTxout o x → ∀ x', b = .scanTxout o x' → x = x' := by
      intro a ha b hb o x e1 x' e2
      subst e1 e2
      simp only [exSpkHist, List.mem_cons, SpkIndex.Op.scanTxout.injEq, reduceCtorEq, List.not_mem_nil, or_false, false_or] at ha hb
      rcases ha with ⟨rfl, rfl⟩ | ⟨rfl, rfl⟩ | ⟨rfl, rfl⟩ | ⟨rfl, rfl⟩ <;>
        rcases hb with ⟨hb, rfl⟩ | ⟨hb, rfl⟩ | ⟨hb, rfl⟩ | ⟨hb, rfl⟩ <;> first | rfl | (exact absurd hb (by decide))
    intro o x x' h1 h2
    exact key _ h1 _ h2 o x rfl x' rfl

/-! ## C31 -/

/-- **C31** `sent_and_received`: the value of the found outputs the transaction spends, and the value of its outputs to
inserted scripts -/
theorem C31_sent_and_received (h : List (SpkIndex.Op I)) (tx : Tx) (spent : OutPoint → Nat) (recv : TxOut → Nat)
    (h1 : ∀ o x i, LastMatched h o x i → spent o = x.value) (h2 : ∀ o, (¬ ∃ x i, Matched h o x i) → spent o = 0)
    (h3 : ∀ x i, FirstIndex h x.spk i → recv x = x.value) (h4 : ∀ x, (¬ ∃ i, FirstIndex h x.spk i) → recv x = 0) :
    (run h).sentAndReceived tx = ((tx.input.map spent).sum, (tx.output.map recv).sum) := by
  have e1 : ∀ (l : List OutPoint) (n : Nat),
      l.foldl (fun s o => match (run h).txout o with | some e => s + e.2.value | none => s) n = n + (l.map spent).sum := by
    intro l
    induction l with
    | nil => intro n; simp
    | cons o l ih =>
      intro n
      rw [List.foldl_cons, ih, List.map_cons, List.sum_cons]
      cases hx : (run h).txout o with
      | some e =>
        rw [h1 o e.2 e.1 ((run_txouts h o e.1 e.2).1 hx)]; simp only []; omega
      | none =>
        have : ¬ ∃ x i, Matched h o x i := by
          rw [← exists_lastMatched]
          rintro ⟨x, i, hm⟩
          rw [← run_txouts] at hm
          unfold txout at hx
          rw [hx] at hm; cases hm
        rw [h2 o this]; simp only []; omega
  have e2 : ∀ (l : List TxOut) (n : Nat),
      l.foldl (fun r o => if ((run h).indexOfSpk o.spk).isSome then r + o.value else r) n = n + (l.map recv).sum := by
    intro l
    induction l with
    | nil => intro n; simp
    | cons o l ih =>
      intro n
      rw [List.foldl_cons, ih, List.map_cons, List.sum_cons]
      cases hx : (run h).indexOfSpk o.spk with
      | some i => rw [h3 o i ((run_indices h o.spk i).1 hx)]; simp only [Option.isSome, if_true]; omega
      | none =>
        have : ¬ ∃ i, FirstIndex h o.spk i := by
          rintro ⟨i, hi⟩; exact (run_indices_none h o.spk).1 hx i hi
        rw [h4 o this]; simp only [Option.isSome, Bool.false_eq_true, if_false]; omega
  have e1' := e1 tx.input 0
  have e2' := e2 tx.output 0
  rw [Nat.zero_add] at e1' e2'
  exact Prod.ext e1' e2'

/-- **C31** `net_value` is received minus sent, for amounts that fit an `i64` -/
theorem C31_net_value (h : List (SpkIndex.Op I)) (tx : Tx) (s r : Nat) (hsr : (run h).sentAndReceived tx = (s, r))
    (hs : s < 2 ^ 63) (hr : r < 2 ^ 63) : (run h).netValue tx = (r : Int) - (s : Int) := by
  unfold netValue asI64
  rw [hsr]
  simp only [if_pos hs, if_pos hr]

/-- **C31** `is_relevant` iff the transaction spends a found output or pays an inserted script -/
theorem C31_is_relevant (h : List (SpkIndex.Op I)) (tx : Tx) :
    (run h).isRelevant tx = true ↔
      (∃ o ∈ tx.input, ∃ x i, Matched h o x i) ∨ (∃ x ∈ tx.output, ∃ i, FirstIndex h x.spk i) := by
  unfold isRelevant
  rw [Bool.or_eq_true, List.find?_isSome, List.find?_isSome]
  apply or_congr
  · constructor
    · rintro ⟨o, ho, hc⟩
      obtain ⟨⟨i, x⟩, hv⟩ := OMap.contains_iff.1 hc
      exact ⟨o, ho, exists_lastMatched.1 ⟨x, i, (run_txouts h o i x).1 hv⟩⟩
    · rintro ⟨o, ho, hx⟩
      obtain ⟨x, i, hm⟩ := exists_lastMatched.2 hx
      exact ⟨o, ho, OMap.contains_iff.2 ⟨(i, x), (run_txouts h o i x).2 hm⟩⟩
  · constructor
    · rintro ⟨x, hx, hc⟩
      obtain ⟨i, hv⟩ := OMap.contains_iff.1 hc
      exact ⟨x, hx, i, (run_indices h x.spk i).1 hv⟩
    · rintro ⟨x, hx, i, hi⟩
      exact ⟨x, hx, OMap.contains_iff.2 ⟨i, (run_indices h x.spk i).2 hi⟩⟩

example : (run exSpkHist).sentAndReceived (demoTx 1) = (50, 49) ∧ (run exSpkHist).netValue (demoTx 1) = -1 ∧
    (run exSpkHist).isRelevant (demoTx 1) = true ∧ (run exSpkHist).isRelevant (demoTx 6) = false := by decide

/-! ## C32 -/

/-- **C32** scanning outputs in another order or repeatedly gives the same index (and reports the same matches), as long as an
outpoint always comes with the same output -/
theorem C32_order_irrelevant (h : List (SpkIndex.Op I)) (l1 l2 : List (OutPoint × TxOut)) (hm : ∀ e, e ∈ l1 ↔ e ∈ l2)
    (hl : ∀ o t t', (o, t) ∈ l1 → (o, t') ∈ l1 → t = t') : (run h).scan l1 = (run h).scan l2 :=
  scan_congr _ l1 l2 hm hl

/-- **C32** the same for transactions, if txids determine transactions -/
theorem C32_tx_order_irrelevant (h : List (SpkIndex.Op I)) (txs1 txs2 : List Tx) (hm : ∀ t, t ∈ txs1 ↔ t ∈ txs2)
    (hid : ∀ t ∈ txs1, ∀ t' ∈ txs1, t.txid = t'.txid → t = t') :
    (run h).scan (txs1.flatMap Tx.txouts) = (run h).scan (txs2.flatMap Tx.txouts) := by
  apply C32_order_irrelevant
  · intro e; simp only [List.mem_flatMap, hm]
  · intro o x x' h1 h2
    obtain ⟨t, ht, h3⟩ := List.mem_flatMap.1 h1
    obtain ⟨t', ht', h4⟩ := List.mem_flatMap.1 h2
    have a := mem_txouts.1 h3; have b := mem_txouts.1 h4
    have := hid t ht t' ht' (by rw [← a.1, ← b.1])
    subst this
    have := a.2; rw [b.2] at this; exact (Option.some.inj this).symm

/-- **C32** scanning again what was just scanned changes nothing -/
theorem C32_rescan (h : List (SpkIndex.Op I)) (l : List (OutPoint × TxOut))
    (hl : ∀ o t t', (o, t) ∈ l → (o, t') ∈ l → t = t') :
    (((run h).scan l).1.scan l).1 = ((run h).scan l).1 := by
  have h1 := C32_order_irrelevant h (l ++ l) l (by intro e; simp) (by
    intro o t t' a b
    exact hl o t t' (by simpa using a) (by simpa using b))
  have h2 : ((run h).scan (l ++ l)).1 = (((run h).scan l).1.scan l).1 := by
    rw [scan_run, scan_run, scan_run, List.map_append, List.append_assoc]
  rw [← h2, h1]

/-- scanning contradictory outputs for one outpoint is order dependent: the honesty hypothesis is needed -/
theorem C32_contradictory_outputs : ∃ (h : List (SpkIndex.Op Nat)) (l : List (OutPoint × TxOut)),
    ((run h).scan l).1.txouts ≠ ((run h).scan l.reverse).1.txouts :=
  ⟨[.insertSpk 7 1], [(⟨dId 0, 0⟩, ⟨50, 1⟩), (⟨dId 0, 0⟩, ⟨51, 1⟩)], by decide⟩

example : ((run exSpkHist).scan ([demoTx 4, demoTx 0, demoTx 4].flatMap Tx.txouts)).1 =
    ((run exSpkHist).scan ([demoTx 0, demoTx 4].flatMap Tx.txouts)).1 := by decide

end Verif.Props
