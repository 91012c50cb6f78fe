import Verif.Spec.SpkIndex
import Mathlib.Data.List.Induction

/-!
# Lemmas about `SpkTxOutIndex`
-/

namespace Verif.SpkIndex
open Verif Verif.Spec
variable {I : Type} [LinearOrder I]

theorem split_snoc {α : Type} {h h1 h2 : List α} {a e : α} :
    h ++ [e] = h1 ++ a :: h2 ↔ (∃ h2', h2 = h2' ++ [e] ∧ h = h1 ++ a :: h2') ∨ (h2 = [] ∧ h1 = h ∧ a = e) := by
  constructor
  · intro hh
    rcases List.eq_nil_or_concat h2 with rfl | ⟨l, b, rfl⟩
    · right
      have := List.append_inj' hh rfl
      simp_all
    · left
      rw [List.concat_eq_append] at hh ⊢
      have e1 : h ++ [e] = (h1 ++ a :: l) ++ [b] := by simpa using hh
      have := List.append_inj' e1 rfl
      refine ⟨l, ?_, this.1⟩
      simp at this; rw [this.2]
  · rintro (⟨h2', rfl, rfl⟩ | ⟨rfl, rfl, rfl⟩) <;> simp

theorem mem_add_iff {K : Type} [LinearOrder K] {s : OSet K} {k k' : K} :
    (s.add k).mem k' = true ↔ k' = k ∨ s.mem k' = true := by
  rw [OSet.mem_add, Bool.or_eq_true, decide_eq_true_eq]

theorem firstIndex_nil {s : Script} {i : I} : ¬ FirstIndex [] s i := by
  rintro ⟨h1, h2, h, _⟩; simp at h

theorem mem_insert_iff {h : List (Op I)} {s : Script} : (∃ j, .insertSpk j s ∈ h) ↔ ∃ j, FirstIndex h s j := by
  constructor
  · induction h using List.reverseRecOn with
    | nil => rintro ⟨j, hj⟩; simp at hj
    | append_singleton h e ih =>
      rintro ⟨j, hj⟩
      by_cases hx : ∃ j, Op.insertSpk j s ∈ h
      · obtain ⟨k, h1, h2, e1, e2⟩ := ih hx
        exact ⟨k, h1, h2 ++ [e], by rw [e1]; simp, e2⟩
      · simp only [List.mem_append, List.mem_singleton] at hj
        rcases hj with hj | hj
        · exact absurd ⟨j, hj⟩ hx
        · exact ⟨j, h, [], by rw [hj], fun k hk => hx ⟨k, hk⟩⟩
  · rintro ⟨j, h1, h2, e, _⟩
    exact ⟨j, by rw [e]; simp⟩

theorem firstIndex_snoc {h : List (Op I)} {e : Op I} {s : Script} {i : I} :
    FirstIndex (h ++ [e]) s i ↔ FirstIndex h s i ∨ ((∀ j, ¬ FirstIndex h s j) ∧ e = .insertSpk i s) := by
  constructor
  · rintro ⟨h1, h2, hh, hn⟩
    rcases split_snoc.1 hh with ⟨h2', rfl, h'⟩ | ⟨rfl, rfl, rfl⟩
    · exact Or.inl ⟨h1, h2', h', hn⟩
    · exact Or.inr ⟨fun j hj => by obtain ⟨k, hk⟩ := mem_insert_iff.2 ⟨j, hj⟩; exact hn k hk, rfl⟩
  · rintro (⟨h1, h2, rfl, hn⟩ | ⟨hn, rfl⟩)
    · exact ⟨h1, h2 ++ [e], by simp, hn⟩
    · exact ⟨h, [], rfl, fun j hj => by obtain ⟨k, hk⟩ := mem_insert_iff.1 ⟨j, hj⟩; exact hn k hk⟩

theorem matched_snoc {h : List (Op I)} {e : Op I} {o : OutPoint} {x : TxOut} {i : I} :
    Matched (h ++ [e]) o x i ↔ Matched h o x i ∨ (e = .scanTxout o x ∧ FirstIndex h x.spk i) := by
  constructor
  · rintro ⟨h1, h2, hh, hf⟩
    rcases split_snoc.1 hh with ⟨h2', rfl, h'⟩ | ⟨rfl, rfl, rfl⟩
    · exact Or.inl ⟨h1, h2', h', hf⟩
    · exact Or.inr ⟨rfl, hf⟩
  · rintro (⟨h1, h2, rfl, hf⟩ | ⟨rfl, hf⟩)
    · exact ⟨h1, h2 ++ [e], by simp, hf⟩
    · exact ⟨h, [], rfl, hf⟩

theorem lastMatched_snoc {h : List (Op I)} {e : Op I} {o : OutPoint} {x : TxOut} {i : I} :
    LastMatched (h ++ [e]) o x i ↔
      (LastMatched h o x i ∧ ∀ x', e = .scanTxout o x' → ∀ j, ¬ FirstIndex h x'.spk j) ∨
      (e = .scanTxout o x ∧ FirstIndex h x.spk i) := by
  constructor
  · rintro ⟨h1, h2, hh, hf, hl⟩
    rcases split_snoc.1 hh with ⟨h2', rfl, h'⟩ | ⟨rfl, rfl, rfl⟩
    · refine Or.inl ⟨⟨h1, h2', h', hf, fun h3 h4 x' e3 => hl h3 (h4 ++ [e]) x' (by rw [e3]; simp)⟩, ?_⟩
      rintro x' rfl j
      rw [h']
      exact hl h2' [] x' (by simp) j
    · exact Or.inr ⟨rfl, hf⟩
  · rintro (⟨⟨h1, h2, rfl, hf, hl⟩, hn⟩ | ⟨rfl, hf⟩)
    · refine ⟨h1, h2 ++ [e], by simp, hf, ?_⟩
      intro h3 h4 x' e3
      rcases split_snoc.1 e3 with ⟨h4', rfl, h4e⟩ | ⟨rfl, rfl, rfl⟩
      · exact hl h3 h4' x' h4e
      · exact hn x' rfl
    · exact ⟨h, [], rfl, hf, fun h3 h4 x' e3 => by simp at e3⟩

theorem inserted_snoc {h : List (Op I)} {e : Op I} {i : I} :
    Inserted (h ++ [e]) i ↔ Inserted h i ∨ ∃ s, (∀ j, ¬ FirstIndex h s j) ∧ e = .insertSpk i s := by
  unfold Inserted
  simp only [firstIndex_snoc]
  constructor
  · rintro ⟨s, hs | hs⟩
    · exact Or.inl ⟨s, hs⟩
    · exact Or.inr ⟨s, hs⟩
  · rintro (⟨s, hs⟩ | ⟨s, hs⟩)
    · exact ⟨s, Or.inl hs⟩
    · exact ⟨s, Or.inr hs⟩

theorem marked_snoc {h : List (Op I)} {e : Op I} {i : I} :
    Marked (h ++ [e]) i ↔ (Marked h i ∧ e ≠ .unmarkUsed i) ∨ (e = .markUsed i ∧ Inserted h i) := by
  constructor
  · rintro ⟨h1, h2, hh, hi, hn⟩
    rcases split_snoc.1 hh with ⟨h2', rfl, h'⟩ | ⟨rfl, rfl, rfl⟩
    · simp only [List.mem_append, List.mem_singleton, not_or] at hn
      exact Or.inl ⟨⟨h1, h2', h', hi, hn.1⟩, fun h => hn.2 h.symm⟩
    · exact Or.inr ⟨rfl, hi⟩
  · rintro (⟨⟨h1, h2, rfl, hi, hn⟩, he⟩ | ⟨rfl, hi⟩)
    · exact ⟨h1, h2 ++ [e], by simp, hi, by simp only [List.mem_append, List.mem_singleton, not_or]; exact ⟨hn, fun h => he h.symm⟩⟩
    · exact ⟨h, [], rfl, hi, by simp⟩

theorem run_snoc (h : List (Op I)) (e : Op I) : run (h ++ [e]) = (run h).step e := by
  unfold run; rw [List.foldl_append]; rfl

/-! ## field-wise effect of a step -/

theorem scanTxout_some {x : SpkIndex I} {o : OutPoint} {t : TxOut} {i : I} (h : x.spkIndices.get t.spk = some i) :
    x.scanTxout o t = ({ x with
        txouts := x.txouts.insert o (i, t)
        spkTxouts := x.spkTxouts.add (toLex (i, o))
        unused := x.unused.remove i }, some i) := by
  unfold scanTxout; rw [h]

theorem scanTxout_none {x : SpkIndex I} {o : OutPoint} {t : TxOut} (h : x.spkIndices.get t.spk = none) :
    x.scanTxout o t = (x, none) := by
  unfold scanTxout; rw [h]

theorem insertSpk_none {x : SpkIndex I} {i : I} {s : Script} (h : x.spkIndices.get s = none) :
    x.insertSpk i s = ({ x with spkIndices := x.spkIndices.insert s i, spks := x.spks.insert i s, unused := x.unused.add i }, true) := by
  unfold insertSpk; rw [h]

theorem insertSpk_some {x : SpkIndex I} {i j : I} {s : Script} (h : x.spkIndices.get s = some j) :
    x.insertSpk i s = (x, false) := by
  unfold insertSpk; rw [h]

theorem minOutPoint_le (o : OutPoint) : minOutPoint ≤ o := by
  show (toLex (minTxid, (⟨0, by decide⟩ : Vout)) : Txid ×ₗ Vout) ≤ toLex (o.txid, o.vout)
  rw [Prod.Lex.toLex_le_toLex]
  rcases lt_or_eq_of_le (minTxid_le o.txid) with h | h
  · exact Or.inl h
  · exact Or.inr ⟨h, Nat.zero_le _⟩

theorem le_maxOutPoint (o : OutPoint) : o ≤ maxOutPoint := by
  show (toLex (o.txid, o.vout) : Txid ×ₗ Vout) ≤ toLex (maxTxid, (⟨2 ^ 32 - 1, by decide⟩ : Vout))
  rw [Prod.Lex.toLex_le_toLex]
  rcases lt_or_eq_of_le (le_maxTxid o.txid) with h | h
  · exact Or.inl h
  · refine Or.inr ⟨h, ?_⟩
    have := o.vout.2
    show o.vout.val ≤ 2 ^ 32 - 1
    omega

theorem mapBound_ge (lo : Bound I) (i : I) (o : OutPoint) :
    (mapBound lo minOutPoint maxOutPoint).geB (toLex (i, o)) = lo.geB i := by
  cases lo with
  | unbounded => rfl
  | included a =>
    simp only [mapBound, Bound.geB, decide_eq_decide, Prod.Lex.toLex_le_toLex]
    constructor
    · rintro (h | ⟨h, -⟩)
      · exact le_of_lt h
      · exact le_of_eq h
    · intro h
      rcases lt_or_eq_of_le h with h | h
      · exact Or.inl h
      · exact Or.inr ⟨h, minOutPoint_le o⟩
  | excluded a =>
    simp only [mapBound, Bound.geB, decide_eq_decide, Prod.Lex.toLex_lt_toLex]
    constructor
    · rintro (h | ⟨-, h⟩)
      · exact h
      · exact absurd (le_maxOutPoint o) (not_le.2 h)
    · exact Or.inl

theorem mapBound_le (hi : Bound I) (i : I) (o : OutPoint) :
    (mapBound hi maxOutPoint minOutPoint).leB (toLex (i, o)) = hi.leB i := by
  cases hi with
  | unbounded => rfl
  | included a =>
    simp only [mapBound, Bound.leB, decide_eq_decide, Prod.Lex.toLex_le_toLex]
    constructor
    · rintro (h | ⟨h, -⟩)
      · exact le_of_lt h
      · exact le_of_eq h
    · intro h
      rcases lt_or_eq_of_le h with h | h
      · exact Or.inl h
      · exact Or.inr ⟨h, le_maxOutPoint o⟩
  | excluded a =>
    simp only [mapBound, Bound.leB, decide_eq_decide, Prod.Lex.toLex_lt_toLex]
    constructor
    · rintro (h | ⟨-, h⟩)
      · exact h
      · exact absurd (minOutPoint_le o) (not_le.2 h)
    · exact Or.inl

theorem min_lt_max : minOutPoint < maxOutPoint :=
  lt_of_le_of_ne (minOutPoint_le _) (by
    intro h
    have : minOutPoint.txid = maxOutPoint.txid := by rw [h]
    have h2 : (minTxid : Txid).val = (maxTxid : Txid).val := by
      have h3 : minTxid = maxTxid := this
      rw [h3]
    revert h2
    show (0 : Nat) = 2 ^ 256 - 1 → False
    decide)

theorem mapBound_panics (lo hi : Bound I) :
    Bound.rangePanics (mapBound lo minOutPoint maxOutPoint) (mapBound hi maxOutPoint minOutPoint) =
      Bound.rangePanics lo hi := by
  have hmM := min_lt_max
  cases lo <;> cases hi <;>
    simp only [mapBound, Bound.rangePanics, decide_eq_decide, Prod.Lex.toLex_lt_toLex, Prod.Lex.toLex_le_toLex]
  · constructor
    · rintro (h | ⟨-, h⟩)
      · exact h
      · exact absurd hmM (not_lt.2 (le_of_lt h))
    · exact Or.inl
  · constructor
    · rintro (h | ⟨-, h⟩)
      · exact h
      · exact absurd h (lt_irrefl _)
    · exact Or.inl
  · constructor
    · rintro (h | ⟨-, h⟩)
      · exact h
      · exact absurd h (lt_irrefl _)
    · exact Or.inl
  · constructor
    · rintro (h | ⟨h, -⟩)
      · exact le_of_lt h
      · exact le_of_eq h
    · intro h
      rcases lt_or_eq_of_le h with h | h
      · exact Or.inl h
      · exact Or.inr ⟨h, le_of_lt hmM⟩

/-- what `outputs_in_range` yields -/
theorem mem_outputsInRange {x : SpkIndex I} {lo hi : Bound I} {l : List (I × OutPoint)}
    (h : x.outputsInRange lo hi = some l) (i : I) (o : OutPoint) :
    (i, o) ∈ l ↔ x.spkTxouts.mem (toLex (i, o)) = true ∧ lo.geB i = true ∧ hi.leB i = true := by
  unfold outputsInRange at h
  simp only [] at h
  rw [mapBound_panics] at h
  by_cases hp : Bound.rangePanics lo hi = true
  · rw [if_pos hp] at h; cases h
  · rw [if_neg hp] at h
    have h' := Option.some.inj h
    rw [← h']
    simp only [List.mem_map, List.mem_filter, Bool.and_eq_true]
    constructor
    · rintro ⟨e, ⟨he, h1, h2⟩, h3⟩
      have : e = toLex (i, o) := h3
      subst this
      rw [mapBound_ge] at h1; rw [mapBound_le] at h2
      exact ⟨OSet.mem_toList.1 he, h1, h2⟩
    · rintro ⟨h1, h2, h3⟩
      refine ⟨toLex (i, o), ⟨OSet.mem_toList.2 h1, ?_, ?_⟩, rfl⟩
      · rw [mapBound_ge]; exact h2
      · rw [mapBound_le]; exact h3

theorem hasOutputs_iff {x : SpkIndex I} {i : I} : x.hasOutputs i = true ↔ ∃ o, x.spkTxouts.mem (toLex (i, o)) = true := by
  have hp : Bound.rangePanics (.included i) (.included i : Bound I) = false := by simp [Bound.rangePanics]
  have : ∃ l, x.outputsInRange (.included i) (.included i) = some l := by
    unfold outputsInRange; simp only []; rw [mapBound_panics, hp]; exact ⟨_, rfl⟩
  obtain ⟨l, hl⟩ := this
  have hm := mem_outputsInRange hl
  unfold hasOutputs; rw [hl]
  cases l with
  | nil =>
    simp only [Bool.false_eq_true, false_iff, not_exists]
    intro o ho
    have := (hm i o).2 ⟨ho, by simp [Bound.geB], by simp [Bound.leB]⟩
    simp at this
  | cons a l =>
    simp only [true_iff]
    have := (hm a.1 a.2).1 (by simp)
    have ha : a.1 = i := by
      have h1 := this.2.1; have h2 := this.2.2
      simp [Bound.geB, Bound.leB] at h1 h2
      exact le_antisymm h2 h1
    exact ⟨a.2, by rw [← ha]; exact this.1⟩

/-! ## the invariants of histories -/

theorem run_indices (h : List (Op I)) (s : Script) (i : I) :
    (run h).spkIndices.get s = some i ↔ FirstIndex h s i := by
  induction h using List.reverseRecOn generalizing s i with
  | nil => simp only [firstIndex_nil, iff_false]; simp [run, empty]
  | append_singleton h e ih =>
    rw [run_snoc, firstIndex_snoc]
    cases e with
    | insertSpk j s' =>
      show ((run h).insertSpk j s').1.spkIndices.get s = some i ↔ _
      cases hg : (run h).spkIndices.get s' with
      | some k =>
        rw [insertSpk_some hg, ih]
        constructor
        · exact Or.inl
        · rintro (h1 | ⟨h1, h2⟩)
          · exact h1
          · cases h2; exact absurd ((ih _ _).1 hg) (h1 k)
      | none =>
        rw [insertSpk_none hg]
        simp only [OMap.get_insert]
        have hno : ∀ k, ¬ FirstIndex h s' k := fun k hk => by rw [(ih _ _).2 hk] at hg; cases hg
        by_cases hs : s = s'
        · subst hs
          simp only [if_true]
          constructor
          · intro h1; cases h1; exact Or.inr ⟨hno, rfl⟩
          · rintro (h1 | ⟨h1, h2⟩)
            · exact absurd h1 (hno _)
            · cases h2; rfl
        · rw [if_neg hs, ih]
          constructor
          · exact Or.inl
          · rintro (h1 | ⟨h1, h2⟩)
            · exact h1
            · cases h2; exact absurd rfl hs
    | scanTxout o t =>
      show ((run h).scanTxout o t).1.spkIndices.get s = some i ↔ _
      have : ((run h).scanTxout o t).1.spkIndices = (run h).spkIndices := by
        cases hg : (run h).spkIndices.get t.spk with
        | some k => rw [scanTxout_some hg]
        | none => rw [scanTxout_none hg]
      rw [this, ih]; simp
    | markUsed j =>
      show (run h).spkIndices.get s = some i ↔ _
      rw [ih]; simp
    | unmarkUsed j =>
      show ((run h).unmarkUsed j).1.spkIndices.get s = some i ↔ _
      have : ((run h).unmarkUsed j).1.spkIndices = (run h).spkIndices := by unfold unmarkUsed; split_ifs <;> rfl
      rw [this, ih]; simp

theorem run_indices_none (h : List (Op I)) (s : Script) :
    (run h).spkIndices.get s = none ↔ ∀ i, ¬ FirstIndex h s i := by
  constructor
  · intro hn i hi; rw [(run_indices h s i).2 hi] at hn; cases hn
  · intro hn
    cases hg : (run h).spkIndices.get s with
    | none => rfl
    | some i => exact absurd ((run_indices h s i).1 hg) (hn i)

theorem insertSpk_txouts (x : SpkIndex I) (i : I) (s : Script) :
    (x.insertSpk i s).1.txouts = x.txouts ∧ (x.insertSpk i s).1.spkTxouts = x.spkTxouts := by
  unfold insertSpk; split <;> exact ⟨rfl, rfl⟩

theorem unmarkUsed_fields (x : SpkIndex I) (i : I) :
    (x.unmarkUsed i).1.txouts = x.txouts ∧ (x.unmarkUsed i).1.spkTxouts = x.spkTxouts ∧ (x.unmarkUsed i).1.spks = x.spks ∧
    (x.unmarkUsed i).1.spkIndices = x.spkIndices := by
  unfold unmarkUsed; split_ifs <;> exact ⟨rfl, rfl, rfl, rfl⟩

theorem run_txouts (h : List (Op I)) (o : OutPoint) (i : I) (t : TxOut) :
    (run h).txouts.get o = some (i, t) ↔ LastMatched h o t i := by
  induction h using List.reverseRecOn generalizing o i t with
  | nil =>
    constructor
    · intro hh; simp [run, empty] at hh
    · rintro ⟨h1, h2, hh, _⟩; simp at hh
  | append_singleton h e ih =>
    rw [run_snoc, lastMatched_snoc]
    have same : ∀ x' : SpkIndex I, x'.txouts = (run h).txouts → (∀ o' t', e ≠ .scanTxout o' t') →
        (x'.txouts.get o = some (i, t) ↔ (LastMatched h o t i ∧ ∀ x', e = .scanTxout o x' → ∀ j, ¬ FirstIndex h x'.spk j) ∨
          (e = .scanTxout o t ∧ FirstIndex h t.spk i)) := by
      intro x' hx hn
      rw [hx, ih]
      constructor
      · exact fun h1 => Or.inl ⟨h1, fun x' hx' => absurd hx' (hn _ _)⟩
      · rintro (⟨h1, -⟩ | ⟨h1, -⟩)
        · exact h1
        · exact absurd h1 (hn _ _)
    cases e with
    | insertSpk j s => exact same _ (insertSpk_txouts _ _ _).1 (by simp)
    | markUsed j => exact same _ rfl (by simp)
    | unmarkUsed j => exact same _ (unmarkUsed_fields _ _).1 (by simp)
    | scanTxout o' t' =>
      show ((run h).scanTxout o' t').1.txouts.get o = some (i, t) ↔ _
      cases hg : (run h).spkIndices.get t'.spk with
      | none =>
        rw [scanTxout_none hg, ih]
        have hn := (run_indices_none h t'.spk).1 hg
        constructor
        · exact fun h1 => Or.inl ⟨h1, fun x' hx' => by cases hx'; exact hn⟩
        · rintro (⟨h1, -⟩ | ⟨h1, h2⟩)
          · exact h1
          · cases h1; exact absurd h2 (hn _)
      | some k =>
        rw [scanTxout_some hg]
        simp only [OMap.get_insert]
        have hk := (run_indices h t'.spk k).1 hg
        by_cases ho : o = o'
        · subst ho
          simp only [if_true, Option.some.injEq, Prod.mk.injEq]
          constructor
          · rintro ⟨rfl, rfl⟩; exact Or.inr ⟨rfl, hk⟩
          · rintro (⟨-, h2⟩ | ⟨h1, h2⟩)
            · exact absurd hk (h2 t' rfl k)
            · cases h1
              have := (run_indices h t.spk i).2 h2
              rw [hg] at this; cases this
              exact ⟨rfl, rfl⟩
        · rw [if_neg ho, ih]
          constructor
          · exact fun h1 => Or.inl ⟨h1, fun x' hx' => by cases hx'; exact absurd rfl ho⟩
          · rintro (⟨h1, -⟩ | ⟨h1, h2⟩)
            · exact h1
            · cases h1; exact absurd rfl ho

theorem run_spkTxouts (h : List (Op I)) (o : OutPoint) (i : I) :
    (run h).spkTxouts.mem (toLex (i, o)) = true ↔ ∃ t, Matched h o t i := by
  induction h using List.reverseRecOn generalizing o i with
  | nil =>
    constructor
    · intro hh; simp [run, empty] at hh
    · rintro ⟨t, h1, h2, hh, _⟩; simp at hh
  | append_singleton h e ih =>
    rw [run_snoc]
    simp only [matched_snoc]
    have same : ∀ x' : SpkIndex I, x'.spkTxouts = (run h).spkTxouts → (∀ o' t', e ≠ .scanTxout o' t') →
        (x'.spkTxouts.mem (toLex (i, o)) = true ↔ ∃ t, Matched h o t i ∨ (e = .scanTxout o t ∧ FirstIndex h t.spk i)) := by
      intro x' hx hn
      rw [hx, ih]
      constructor
      · exact fun ⟨t, h1⟩ => ⟨t, Or.inl h1⟩
      · rintro ⟨t, h1 | ⟨h1, -⟩⟩
        · exact ⟨t, h1⟩
        · exact absurd h1 (hn _ _)
    cases e with
    | insertSpk j s => exact same _ (insertSpk_txouts _ _ _).2 (by simp)
    | markUsed j => exact same _ rfl (by simp)
    | unmarkUsed j => exact same _ (unmarkUsed_fields _ _).2.1 (by simp)
    | scanTxout o' t' =>
      show ((run h).scanTxout o' t').1.spkTxouts.mem (toLex (i, o)) = true ↔ _
      cases hg : (run h).spkIndices.get t'.spk with
      | none =>
        rw [scanTxout_none hg, ih]
        have hn := (run_indices_none h t'.spk).1 hg
        constructor
        · exact fun ⟨t, h1⟩ => ⟨t, Or.inl h1⟩
        · rintro ⟨t, h1 | ⟨h1, h2⟩⟩
          · exact ⟨t, h1⟩
          · cases h1; exact absurd h2 (hn _)
      | some k =>
        rw [scanTxout_some hg]
        have hk := (run_indices h t'.spk k).1 hg
        show (OSet.add _ _).mem _ = true ↔ _
        rw [mem_add_iff, ih]
        constructor
        · rintro (h1 | ⟨t, h1⟩)
          · have h1' : (i, o) = (k, o') := h1
            cases h1'
            exact ⟨t', Or.inr ⟨rfl, hk⟩⟩
          · exact ⟨t, Or.inl h1⟩
        · rintro ⟨t, h1 | ⟨h1, h2⟩⟩
          · exact Or.inr ⟨t, h1⟩
          · cases h1
            have := (run_indices h _ i).2 h2
            rw [hg] at this; cases this
            exact Or.inl rfl

/-- every stored script was inserted first with its index -/
theorem run_spks_first (h : List (Op I)) (i : I) (s : Script) (hs : (run h).spks.get i = some s) : FirstIndex h s i := by
  induction h using List.reverseRecOn generalizing i s with
  | nil => simp [run, empty] at hs
  | append_singleton h e ih =>
    rw [run_snoc] at hs
    rw [firstIndex_snoc]
    cases e with
    | insertSpk j s' =>
      change ((run h).insertSpk j s').1.spks.get i = some s at hs
      cases hg : (run h).spkIndices.get s' with
      | some k => rw [insertSpk_some hg] at hs; exact Or.inl (ih _ _ hs)
      | none =>
        rw [insertSpk_none hg] at hs
        simp only [OMap.get_insert] at hs
        by_cases hi : i = j
        · rw [if_pos hi] at hs; cases hs; subst hi
          exact Or.inr ⟨(run_indices_none h s).1 hg, rfl⟩
        · rw [if_neg hi] at hs; exact Or.inl (ih _ _ hs)
    | scanTxout o t =>
      change ((run h).scanTxout o t).1.spks.get i = some s at hs
      have : ((run h).scanTxout o t).1.spks = (run h).spks := by
        cases hg : (run h).spkIndices.get t.spk with
        | some k => rw [scanTxout_some hg]
        | none => rw [scanTxout_none hg]
      rw [this] at hs; exact Or.inl (ih _ _ hs)
    | markUsed j => exact Or.inl (ih _ _ hs)
    | unmarkUsed j =>
      change ((run h).unmarkUsed j).1.spks.get i = some s at hs
      rw [(unmarkUsed_fields _ _).2.2.1] at hs; exact Or.inl (ih _ _ hs)

theorem run_spks_some (h : List (Op I)) (i : I) (hi : Inserted h i) : ∃ s, (run h).spks.get i = some s := by
  induction h using List.reverseRecOn with
  | nil => obtain ⟨s, hs⟩ := hi; exact absurd hs firstIndex_nil
  | append_singleton h e ih =>
    rw [run_snoc]
    rcases inserted_snoc.1 hi with h1 | ⟨s, h1, rfl⟩
    · obtain ⟨s, hs⟩ := ih h1
      cases e with
      | insertSpk j s' =>
        show ∃ s, ((run h).insertSpk j s').1.spks.get i = some s
        cases hg : (run h).spkIndices.get s' with
        | some k => rw [insertSpk_some hg]; exact ⟨s, hs⟩
        | none =>
          rw [insertSpk_none hg]
          simp only [OMap.get_insert]
          by_cases hij : i = j
          · exact ⟨s', by rw [if_pos hij]⟩
          · exact ⟨s, by rw [if_neg hij]; exact hs⟩
      | scanTxout o t =>
        show ∃ s, ((run h).scanTxout o t).1.spks.get i = some s
        have : ((run h).scanTxout o t).1.spks = (run h).spks := by
          cases hg : (run h).spkIndices.get t.spk with
          | some k => rw [scanTxout_some hg]
          | none => rw [scanTxout_none hg]
        rw [this]; exact ⟨s, hs⟩
      | markUsed j => exact ⟨s, hs⟩
      | unmarkUsed j =>
        show ∃ s, ((run h).unmarkUsed j).1.spks.get i = some s
        rw [(unmarkUsed_fields _ _).2.2.1]; exact ⟨s, hs⟩
    · show ∃ s', ((run h).insertSpk i s).1.spks.get i = some s'
      rw [insertSpk_none ((run_indices_none h s).2 h1)]
      exact ⟨s, by simp⟩

theorem run_spks_isSome (h : List (Op I)) (i : I) : (∃ s, (run h).spks.get i = some s) ↔ Inserted h i :=
  ⟨fun ⟨s, hs⟩ => ⟨s, run_spks_first h i s hs⟩, run_spks_some h i⟩

theorem fresh_of_snoc {h : List (Op I)} {e : Op I} (hf : FreshIndices (h ++ [e])) : FreshIndices h :=
  fun i s s' h1 h2 => hf i s s' (firstIndex_snoc.2 (Or.inl h1)) (firstIndex_snoc.2 (Or.inl h2))

theorem matched_inserted {h : List (Op I)} {o : OutPoint} {t : TxOut} {i : I} (hm : Matched h o t i) : Inserted h i := by
  obtain ⟨h1, h2, rfl, g1, g2, rfl, hn⟩ := hm
  exact ⟨t.spk, g1, g2 ++ .scanTxout o t :: h2, by simp, hn⟩

theorem marked_inserted {h : List (Op I)} {i : I} (hm : Marked h i) : Inserted h i := by
  obtain ⟨h1, h2, rfl, ⟨s, g1, g2, rfl, hn⟩, _⟩ := hm
  exact ⟨s, g1, g2 ++ .markUsed i :: h2, by simp, hn⟩

/-- unused indices are exactly those that were inserted, have no outputs and are not marked -/
theorem run_unused (h : List (Op I)) (hf : FreshIndices h) (i : I) :
    (run h).unused.mem i = true ↔ Inserted h i ∧ (¬ ∃ o t, Matched h o t i) ∧ ¬ Marked h i := by
  induction h using List.reverseRecOn generalizing i with
  | nil =>
    constructor
    · intro hh; simp [run, empty] at hh
    · rintro ⟨⟨s, hs⟩, _⟩; exact absurd hs firstIndex_nil
  | append_singleton h e ih =>
    have ih' := fun i => ih (fresh_of_snoc hf) i
    rw [run_snoc]
    cases e with
    | insertSpk j s =>
      show ((run h).insertSpk j s).1.unused.mem i = true ↔ _
      have hm : (∃ o t, Matched (h ++ [.insertSpk j s]) o t i) ↔ ∃ o t, Matched h o t i := by
        simp only [matched_snoc]; simp
      have hk : Marked (h ++ [.insertSpk j s]) i ↔ Marked h i := by rw [marked_snoc]; simp
      rw [hm, hk, inserted_snoc]
      cases hg : (run h).spkIndices.get s with
      | some k =>
        rw [insertSpk_some hg, ih']
        have : ¬ ∃ s', (∀ j, ¬ FirstIndex h s' j) ∧ (Op.insertSpk j s : Op I) = .insertSpk i s' := by
          rintro ⟨s', h1, h2⟩; cases h2; exact h1 k ((run_indices h s k).1 hg)
        simp only [this, or_false]
      | none =>
        have hno := (run_indices_none h s).1 hg
        rw [insertSpk_none hg]
        show (OSet.add _ _).mem _ = true ↔ _
        rw [OSet.mem_add, Bool.or_eq_true, decide_eq_true_eq, ih']
        by_cases hij : i = j
        · subst hij
          have hni : ¬ Inserted h i := by
            rintro ⟨s', hs'⟩
            have := hf i s s' (firstIndex_snoc.2 (Or.inr ⟨hno, rfl⟩)) (firstIndex_snoc.2 (Or.inl hs'))
            subst this; exact hno _ hs'
          have h1 : ¬ ∃ o t, Matched h o t i := fun ⟨o, t, hm⟩ => hni (matched_inserted hm)
          have h2 : ¬ Marked h i := fun hm => hni (marked_inserted hm)
          simp only [true_or, true_iff]
          exact ⟨Or.inr ⟨s, hno, rfl⟩, h1, h2⟩
        · have : ¬ ∃ s', (∀ j, ¬ FirstIndex h s' j) ∧ (Op.insertSpk j s : Op I) = .insertSpk i s' := by
            rintro ⟨s', h1, h2⟩; cases h2; exact hij rfl
          simp only [this, or_false, hij, false_or]
    | scanTxout o t =>
      show ((run h).scanTxout o t).1.unused.mem i = true ↔ _
      have hk : Marked (h ++ [.scanTxout o t]) i ↔ Marked h i := by rw [marked_snoc]; simp
      have hI : Inserted (h ++ [.scanTxout o t]) i ↔ Inserted h i := by rw [inserted_snoc]; simp
      rw [hk, hI]
      simp only [matched_snoc]
      cases hg : (run h).spkIndices.get t.spk with
      | none =>
        have hno := (run_indices_none h t.spk).1 hg
        rw [scanTxout_none hg, ih']
        have : (∃ o' t', Matched h o' t' i ∨ (Op.scanTxout o t : Op I) = .scanTxout o' t' ∧ FirstIndex h t'.spk i) ↔ ∃ o' t', Matched h o' t' i := by
          constructor
          · rintro ⟨o', t', h1 | ⟨h1, h2⟩⟩
            · exact ⟨o', t', h1⟩
            · cases h1; exact absurd h2 (hno _)
          · rintro ⟨o', t', h1⟩; exact ⟨o', t', Or.inl h1⟩
        rw [this]
      | some k =>
        have hkf := (run_indices h t.spk k).1 hg
        rw [scanTxout_some hg]
        show (OSet.remove _ _).mem _ = true ↔ _
        rw [OSet.mem_remove, Bool.and_eq_true, decide_eq_true_eq, ih']
        constructor
        · rintro ⟨h1, h2, h3, h4⟩
          refine ⟨h2, ?_, h4⟩
          rintro ⟨o', t', h5 | ⟨h5, h6⟩⟩
          · exact h3 ⟨o', t', h5⟩
          · cases h5
            have := (run_indices h _ i).2 h6
            rw [hg] at this; cases this; exact h1 rfl
        · rintro ⟨h2, h3, h4⟩
          refine ⟨?_, h2, fun ⟨o', t', h5⟩ => h3 ⟨o', t', Or.inl h5⟩, h4⟩
          rintro rfl
          exact h3 ⟨o, t, Or.inr ⟨rfl, hkf⟩⟩
    | markUsed j =>
      show (OSet.remove (run h).unused j).mem i = true ↔ _
      have hI : Inserted (h ++ [.markUsed j]) i ↔ Inserted h i := by rw [inserted_snoc]; simp
      have hm : (∃ o t, Matched (h ++ [.markUsed j]) o t i) ↔ ∃ o t, Matched h o t i := by
        simp only [matched_snoc]; simp
      rw [hm, hI, OSet.mem_remove, Bool.and_eq_true, decide_eq_true_eq, ih', marked_snoc]
      constructor
      · rintro ⟨h1, h2, h3, h4⟩
        refine ⟨h2, h3, ?_⟩
        rintro (⟨h5, -⟩ | ⟨h5, -⟩)
        · exact h4 h5
        · cases h5; exact h1 rfl
      · rintro ⟨h2, h3, h4⟩
        refine ⟨?_, h2, h3, fun h5 => h4 (Or.inl ⟨h5, by simp⟩)⟩
        rintro rfl
        exact h4 (Or.inr ⟨rfl, h2⟩)
    | unmarkUsed j =>
      show ((run h).unmarkUsed j).1.unused.mem i = true ↔ _
      have hI : Inserted (h ++ [.unmarkUsed j]) i ↔ Inserted h i := by rw [inserted_snoc]; simp
      have hm : (∃ o t, Matched (h ++ [.unmarkUsed j]) o t i) ↔ ∃ o t, Matched h o t i := by
        simp only [matched_snoc]; simp
      rw [hm, hI, marked_snoc]
      have hu : (Op.unmarkUsed j : Op I) = .markUsed i ∧ Inserted h i ↔ False := by simp
      rw [hu, or_false]
      unfold unmarkUsed
      by_cases hc : (!(run h).spks.contains j) = true
      · rw [if_pos hc, ih']
        have hnj : ¬ Inserted h j := by
          intro hj
          obtain ⟨s, hs⟩ := (run_spks_isSome h j).2 hj
          rw [OMap.contains_iff.2 ⟨s, hs⟩] at hc; simp at hc
        constructor
        · rintro ⟨h1, h2, h3⟩; exact ⟨h1, h2, fun h4 => h3 h4.1⟩
        · rintro ⟨h1, h2, h3⟩
          refine ⟨h1, h2, fun h4 => h3 ⟨h4, ?_⟩⟩
          intro h5; cases h5; exact hnj h1
      · rw [if_neg hc]
        have hj : Inserted h j := by
          apply (run_spks_isSome h j).1
          apply OMap.contains_iff.1
          cases h' : (run h).spks.contains j <;> simp_all
        by_cases ho : (run h).hasOutputs j = true
        · rw [if_pos ho, ih']
          have ho' := hasOutputs_iff.1 ho
          simp only [run_spkTxouts] at ho'
          constructor
          · rintro ⟨h1, h2, h3⟩; exact ⟨h1, h2, fun h4 => h3 h4.1⟩
          · rintro ⟨h1, h2, h3⟩
            refine ⟨h1, h2, fun h4 => h3 ⟨h4, ?_⟩⟩
            intro h5; cases h5; exact h2 ho'
        · rw [if_neg ho]
          have ho' : ¬ ∃ o t, Matched h o t j := by
            intro hh; apply ho; rw [hasOutputs_iff]; simp only [run_spkTxouts]; exact hh
          show (OSet.add _ _).mem _ = true ↔ _
          rw [OSet.mem_add, Bool.or_eq_true, decide_eq_true_eq, ih']
          by_cases hij : i = j
          · subst hij
            simp only [true_or, true_iff]
            exact ⟨hj, ho', fun h4 => h4.2 rfl⟩
          · simp only [hij, false_or]
            constructor
            · rintro ⟨h1, h2, h3⟩; exact ⟨h1, h2, fun h4 => h3 h4.1⟩
            · rintro ⟨h1, h2, h3⟩
              exact ⟨h1, h2, fun h4 => h3 ⟨h4, by intro h5; cases h5; exact hij rfl⟩⟩

end Verif.SpkIndex
