import Verif.Lemmas.SpkIndex

/-!
# Lemmas about scanning many outputs
-/

namespace Verif
open Verif

theorem mem_txouts {t : Tx} {o : OutPoint} {x : TxOut} :
    (o, x) ∈ t.txouts ↔ o.txid = t.txid ∧ t.output[o.vout.val]? = some x := by
  unfold Tx.txouts
  simp only [List.mem_map]
  constructor
  · rintro ⟨⟨y, n⟩, hy, he⟩
    have hy' := List.mem_zipIdx_iff_getElem?.1 hy
    have hn : n < t.output.length := (List.getElem?_eq_some_iff.1 hy').1
    have := t.small
    cases he
    refine ⟨rfl, ?_⟩
    show t.output[n % 2 ^ 32]? = some _
    rw [Nat.mod_eq_of_lt (by omega)]; exact hy'
  · rintro ⟨h1, h2⟩
    refine ⟨(x, o.vout.val), List.mem_zipIdx_iff_getElem?.2 h2, ?_⟩
    have : (Fin.ofNat (2 ^ 32) o.vout.val : Vout) = o.vout := by
      apply Fin.ext
      show o.vout.val % 2 ^ 32 = o.vout.val
      exact Nat.mod_eq_of_lt o.vout.2
    cases o; simp_all

namespace SpkIndex
open Verif.Spec
variable {I : Type} [LinearOrder I]

theorem scan_snoc (x : SpkIndex I) (l : List (OutPoint × TxOut)) (e : OutPoint × TxOut) :
    x.scan (l ++ [e]) = (((x.scan l).1.scanTxout e.1 e.2).1,
      match ((x.scan l).1.scanTxout e.1 e.2).2 with | some i => (x.scan l).2.add i | none => (x.scan l).2) := by
  unfold scan; rw [List.foldl_append]; rfl

theorem scan_fields (x : SpkIndex I) (l : List (OutPoint × TxOut)) :
    (x.scan l).1.spks = x.spks ∧ (x.scan l).1.spkIndices = x.spkIndices ∧
    (∀ i, (x.scan l).1.unused.mem i = true ↔ x.unused.mem i = true ∧ ¬ ∃ e ∈ l, x.spkIndices.get e.2.spk = some i) ∧
    (∀ i o, (x.scan l).1.spkTxouts.mem (toLex (i, o)) = true ↔ x.spkTxouts.mem (toLex (i, o)) = true ∨
      ∃ t, (o, t) ∈ l ∧ x.spkIndices.get t.spk = some i) ∧
    (∀ i, (x.scan l).2.mem i = true ↔ ∃ e ∈ l, x.spkIndices.get e.2.spk = some i) := by
  induction l using List.reverseRecOn with
  | nil => simp [scan]
  | append_singleton l e ih =>
    obtain ⟨h1, h2, h3, h4, h5⟩ := ih
    rw [scan_snoc]
    cases hg : x.spkIndices.get e.2.spk with
    | none =>
      rw [scanTxout_none (by rw [h2]; exact hg)]
      refine ⟨h1, h2, ?_, ?_, ?_⟩
      · intro i; rw [h3]
        apply and_congr Iff.rfl
        rw [not_iff_not]
        simp only [List.mem_append, List.mem_singleton]
        constructor
        · rintro ⟨a, ha, hb⟩; exact ⟨a, Or.inl ha, hb⟩
        · rintro ⟨a, ha | rfl, hb⟩
          · exact ⟨a, ha, hb⟩
          · rw [hg] at hb; cases hb
      · intro i o; rw [h4]
        apply or_congr Iff.rfl
        simp only [List.mem_append, List.mem_singleton]
        constructor
        · rintro ⟨a, ha, hb⟩; exact ⟨a, Or.inl ha, hb⟩
        · rintro ⟨a, ha | ha, hb⟩
          · exact ⟨a, ha, hb⟩
          · subst ha; rw [hg] at hb; cases hb
      · intro i
        simp only []
        rw [h5]
        simp only [List.mem_append, List.mem_singleton]
        constructor
        · rintro ⟨a, ha, hb⟩; exact ⟨a, Or.inl ha, hb⟩
        · rintro ⟨a, ha | rfl, hb⟩
          · exact ⟨a, ha, hb⟩
          · rw [hg] at hb; cases hb
    | some k =>
      rw [scanTxout_some (by rw [h2]; exact hg)]
      refine ⟨h1, h2, ?_, ?_, ?_⟩
      · intro i
        show (OSet.remove _ _).mem _ = true ↔ _
        rw [OSet.mem_remove, Bool.and_eq_true, decide_eq_true_eq, h3]
        simp only [List.mem_append, List.mem_singleton]
        constructor
        · rintro ⟨a, b, c⟩
          refine ⟨b, ?_⟩
          rintro ⟨f, hf | rfl, hb⟩
          · exact c ⟨f, hf, hb⟩
          · rw [hg] at hb; cases hb; exact a rfl
        · rintro ⟨b, c⟩
          refine ⟨?_, b, fun ⟨f, hf, hb⟩ => c ⟨f, Or.inl hf, hb⟩⟩
          rintro rfl; exact c ⟨e, Or.inr rfl, hg⟩
      · intro i o
        show (OSet.add _ _).mem _ = true ↔ _
        rw [mem_add_iff, h4]
        simp only [List.mem_append, List.mem_singleton]
        constructor
        · rintro (a | a | ⟨t, a, b⟩)
          · have a' : (i, o) = (k, e.1) := a
            cases a'
            exact Or.inr ⟨e.2, Or.inr rfl, hg⟩
          · exact Or.inl a
          · exact Or.inr ⟨t, Or.inl a, b⟩
        · rintro (a | ⟨t, a | a, b⟩)
          · exact Or.inr (Or.inl a)
          · exact Or.inr (Or.inr ⟨t, a, b⟩)
          · subst a; rw [hg] at b; cases b; exact Or.inl rfl
      · intro i
        show (OSet.add _ _).mem _ = true ↔ _
        rw [mem_add_iff, h5]
        simp only [List.mem_append, List.mem_singleton]
        constructor
        · rintro (rfl | ⟨a, ha, hb⟩)
          · exact ⟨e, Or.inr rfl, hg⟩
          · exact ⟨a, Or.inl ha, hb⟩
        · rintro ⟨a, ha | rfl, hb⟩
          · exact Or.inr ⟨a, ha, hb⟩
          · rw [hg] at hb; cases hb; exact Or.inl rfl

theorem scan_txouts (x : SpkIndex I) (l : List (OutPoint × TxOut))
    (hl : ∀ o t t', (o, t) ∈ l → (o, t') ∈ l → t = t') (o : OutPoint) (i : I) (t : TxOut) :
    (x.scan l).1.txouts.get o = some (i, t) ↔ ((o, t) ∈ l ∧ x.spkIndices.get t.spk = some i) ∨
      (x.txouts.get o = some (i, t) ∧ ∀ t', (o, t') ∈ l → x.spkIndices.get t'.spk = none) := by
  induction l using List.reverseRecOn generalizing o i t with
  | nil => simp [scan]
  | append_singleton l e ih =>
    have ih' := ih (fun o t t' h1 h2 => hl o t t' (List.mem_append_left _ h1) (List.mem_append_left _ h2))
    have h2 := (scan_fields x l).2.1
    rw [scan_snoc]
    cases hg : x.spkIndices.get e.2.spk with
    | none =>
      rw [scanTxout_none (by rw [h2]; exact hg)]
      simp only []
      rw [ih']
      simp only [List.mem_append, List.mem_singleton]
      constructor
      · rintro (⟨a, b⟩ | ⟨a, b⟩)
        · exact Or.inl ⟨Or.inl a, b⟩
        · refine Or.inr ⟨a, ?_⟩
          rintro t' (h | rfl)
          · exact b _ h
          · exact hg
      · rintro (⟨a | rfl, b⟩ | ⟨a, b⟩)
        · exact Or.inl ⟨a, b⟩
        · rw [hg] at b; cases b
        · exact Or.inr ⟨a, fun t' h => b t' (Or.inl h)⟩
    | some k =>
      rw [scanTxout_some (by rw [h2]; exact hg)]
      simp only [OMap.get_insert]
      by_cases ho : o = e.1
      · rw [if_pos ho]
        have hmem : (o, e.2) ∈ l ++ [e] := by rw [ho]; simp
        constructor
        · intro hh
          have := Option.some.inj hh
          cases this
          exact Or.inl ⟨hmem, hg⟩
        · rintro (⟨a, b⟩ | ⟨a, b⟩)
          · have := hl o t e.2 a hmem
            subst this
            rw [hg] at b; cases b; rfl
          · have := b e.2 hmem
            rw [hg] at this; cases this
      · rw [if_neg ho, ih']
        have hne : ∀ t', (o, t') ∈ l ++ [e] ↔ (o, t') ∈ l := by
          intro t'
          simp only [List.mem_append, List.mem_singleton]
          constructor
          · rintro (h | h)
            · exact h
            · exact absurd (by rw [← h]) ho
          · exact Or.inl
        simp only [hne]

theorem scan_congr (x : SpkIndex I) (l1 l2 : List (OutPoint × TxOut)) (hm : ∀ e, e ∈ l1 ↔ e ∈ l2)
    (hl : ∀ o t t', (o, t) ∈ l1 → (o, t') ∈ l1 → t = t') : x.scan l1 = x.scan l2 := by
  obtain ⟨a1, a2, a3, a4, a5⟩ := scan_fields x l1
  obtain ⟨b1, b2, b3, b4, b5⟩ := scan_fields x l2
  have c1 := scan_txouts x l1 hl
  have c2 := scan_txouts x l2 (fun o t t' h1 h2 => hl o t t' ((hm _).2 h1) ((hm _).2 h2))
  have key : (x.scan l1).1 = (x.scan l2).1 := by
    have e3 : (x.scan l1).1.unused = (x.scan l2).1.unused := by
      apply OSet.ext_mem; intro k
      rw [Bool.eq_iff_iff, a3, b3]; simp only [hm]
    have e4 : (x.scan l1).1.spkTxouts = (x.scan l2).1.spkTxouts := by
      apply OSet.ext_mem; intro k
      rw [Bool.eq_iff_iff]
      have h1 := a4 (ofLex k).1 (ofLex k).2
      have h2 := b4 (ofLex k).1 (ofLex k).2
      have hk : toLex ((ofLex k).1, (ofLex k).2) = k := rfl
      rw [hk] at h1 h2
      rw [h1, h2]; simp only [hm]
    have e5 : (x.scan l1).1.txouts = (x.scan l2).1.txouts := by
      apply OMap.ext_get; intro o
      apply Option.ext; rintro ⟨i, t⟩
      rw [c1, c2]; simp only [hm]
    rcases h1 : (x.scan l1).1 with ⟨s1, s2, s3, s4, s5⟩
    rcases h2 : (x.scan l2).1 with ⟨r1, r2, r3, r4, r5⟩
    rw [h1] at a1 a2 e3 e4 e5; rw [h2] at b1 b2 e3 e4 e5
    simp only [] at *
    subst a1 a2 b1 b2 e3 e4 e5; rfl
  have key2 : (x.scan l1).2 = (x.scan l2).2 := by
    apply OSet.ext_mem; intro k
    rw [Bool.eq_iff_iff, a5, b5]; simp only [hm]
  exact Prod.ext key key2

theorem scan_run (h : List (Op I)) (l : List (OutPoint × TxOut)) :
    ((run h).scan l).1 = run (h ++ l.map (fun e => .scanTxout e.1 e.2)) := by
  induction l using List.reverseRecOn with
  | nil => simp [scan]
  | append_singleton l e ih =>
    rw [scan_snoc, List.map_append, ← List.append_assoc]
    show ((SpkIndex.scanTxout _ _ _).1) = run (_ ++ [_])
    rw [run_snoc, ← ih]; rfl

theorem exists_lastMatched {h : List (Op I)} {o : OutPoint} :
    (∃ t i, LastMatched h o t i) ↔ ∃ t i, Matched h o t i := by
  constructor
  · rintro ⟨t, i, h1, h2, a, b, _⟩; exact ⟨t, i, h1, h2, a, b⟩
  · rintro ⟨t, i, hm⟩
    induction h using List.reverseRecOn generalizing t i with
    | nil => obtain ⟨h1, h2, e, _⟩ := hm; simp at e
    | append_singleton h e ih =>
      by_cases hx : ∃ t' j, e = .scanTxout o t' ∧ FirstIndex h t'.spk j
      · obtain ⟨t', j, h1, h2⟩ := hx
        exact ⟨t', j, lastMatched_snoc.2 (Or.inr ⟨h1, h2⟩)⟩
      · rcases matched_snoc.1 hm with h1 | h1
        · obtain ⟨t', j, h2⟩ := ih t i h1
          exact ⟨t', j, lastMatched_snoc.2 (Or.inl ⟨h2, fun x' he k hk => hx ⟨x', k, he, hk⟩⟩)⟩
        · exact absurd ⟨t, i, h1⟩ hx

theorem firstIndex_fun {h : List (Op I)} {s : Script} {i j : I} (h1 : FirstIndex h s i) (h2 : FirstIndex h s j) : i = j := by
  have a := (run_indices h s i).2 h1
  rw [(run_indices h s j).2 h2] at a; exact (Option.some.inj a).symm

theorem firstIndex_mono {h : List (Op I)} {s : Script} {i : I} (h1 : FirstIndex h s i) (h' : List (Op I)) :
    FirstIndex (h ++ h') s i := by
  obtain ⟨a, b, rfl, c⟩ := h1; exact ⟨a, b ++ h', by simp, c⟩

theorem firstIndex_of_matched {h : List (Op I)} {o : OutPoint} {t : TxOut} {i : I} (hm : Matched h o t i) :
    FirstIndex h t.spk i := by
  obtain ⟨a, b, rfl, c⟩ := hm; exact firstIndex_mono c _

theorem lastMatched_of_honest {h : List (Op I)} (hh : HonestScans h) {o : OutPoint} {t : TxOut} {i : I} :
    LastMatched h o t i ↔ Matched h o t i := by
  constructor
  · rintro ⟨h1, h2, a, b, _⟩; exact ⟨h1, h2, a, b⟩
  · intro hm
    obtain ⟨t', j, hl⟩ := exists_lastMatched.2 ⟨t, i, hm⟩
    have hm' : Matched h o t' j := by obtain ⟨h1, h2, a, b, _⟩ := hl; exact ⟨h1, h2, a, b⟩
    have ht : t = t' := hh o t t' (by obtain ⟨a, b, c, _⟩ := hm; rw [c]; simp) (by obtain ⟨a, b, c, _⟩ := hm'; rw [c]; simp)
    subst ht
    have := firstIndex_fun (firstIndex_of_matched hm) (firstIndex_of_matched hm')
    subst this; exact hl

end SpkIndex
end Verif
