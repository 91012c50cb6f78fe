import Verif.Lemmas.Bnb2
import Verif.Props.CoinSelect
import Mathlib.Data.List.Sort

/-! # C47, C48: branch and bound -/

namespace Verif.CoinSelect
open Bnb

theorem poolGood_of_sort {s : Selector} {sort : List (Nat × WV) → List (Nat × WV)}
    (hs : ValidSort s.opts.targetFeerate sort) : PoolGood s (sort (usefulUnselected s)) := by
  have hp := (hs (usefulUnselected s)).1
  have hmem : ∀ e ∈ sort (usefulUnselected s), e.1 < s.candidates.length ∧ e.1 ∉ s.selected ∧
      e.2 = s.candidate e.1 ∧ 0 < e.2.eff s.opts.targetFeerate := by
    intro e he
    have h1 := hp.mem_iff.1 he
    rw [usefulUnselected, List.mem_filter, decide_eq_true_iff, Selector.unselected, List.mem_map] at h1
    obtain ⟨⟨i, hi, rfl⟩, h2⟩ := h1
    rw [mem_unselectedIndexes] at hi
    exact ⟨hi.1, hi.2, rfl, h2⟩
  refine { nodup := ?_, range := fun e he => (hmem e he).1, cand := fun e he => (hmem e he).2.2.1,
           pos := fun e he => (hmem e he).2.2.2 }
  have h2 : ((sort (usefulUnselected s)).map (·.1)).Perm ((usefulUnselected s).map (·.1)) := hp.map _
  rw [h2.nodup_iff]
  have h3 : ((usefulUnselected s).map (·.1)).Sublist s.unselectedIndexes := by
    have h4 : s.unselected.map (·.1) = s.unselectedIndexes := by
      rw [Selector.unselected, List.map_map]
      exact List.map_id _
    rw [← h4]
    exact (List.filter_sublist).map _
  refine h3.nodup ?_
  exact List.nodup_range.filter _

theorem mem_pool {s : Selector} {sort : List (Nat × WV) → List (Nat × WV)}
    (hs : ValidSort s.opts.targetFeerate sort) {e : Nat × WV} :
    e ∈ sort (usefulUnselected s) ↔ e.1 < s.candidates.length ∧ e.1 ∉ s.selected ∧ e.2 = s.candidate e.1 ∧
      0 < e.2.eff s.opts.targetFeerate := by
  rw [(hs (usefulUnselected s)).1.mem_iff, usefulUnselected, List.mem_filter, decide_eq_true_iff,
    Selector.unselected, List.mem_map]
  constructor
  · rintro ⟨⟨i, hi, rfl⟩, h2⟩
    rw [mem_unselectedIndexes] at hi
    exact ⟨hi.1, hi.2, rfl, h2⟩
  · rintro ⟨h1, h2, h3, h4⟩
    refine ⟨⟨e.1, mem_unselectedIndexes.2 ⟨h1, h2⟩, ?_⟩, h4⟩
    rw [← h3]

theorem fresh_root {s : Selector} {sort : List (Nat × WV) → List (Nat × WV)}
    (hs : ValidSort s.opts.targetFeerate sort) : Fresh (sort (usefulUnselected s)) 0 s.selected := by
  intro e he
  rw [List.drop_zero] at he
  exact ((mem_pool hs).1 he).2.1

/-- measures of a set built from a list of distinct pool entries -/
theorem mX_union {s : Selector} : ∀ (R : List (Nat × WV)) (X : Finset Nat), (R.map (·.1)).Nodup →
    (∀ e ∈ R, e.2 = s.candidate e.1 ∧ e.1 ∉ X) → mX s (X ∪ (R.map (·.1)).toFinset) = mX s X + mL s R := by
  intro R
  induction R with
  | nil => intro X _ _; simp [mL_nil]
  | cons c R ih =>
    intro X hnd hc
    rw [List.map_cons, List.nodup_cons] at hnd
    have h1 := ih (insert c.1 X) hnd.2 (by
      intro e he
      refine ⟨(hc e (List.mem_cons_of_mem _ he)).1, ?_⟩
      rw [Finset.mem_insert]
      rintro (h | h)
      · apply hnd.1; rw [← h]; exact List.mem_map_of_mem he
      · exact (hc e (List.mem_cons_of_mem _ he)).2 h)
    obtain ⟨g1, g2⟩ := hc c List.mem_cons_self
    rw [List.map_cons, List.toFinset_cons, Finset.union_insert, ← Finset.insert_union, h1, mX_insert g1 g2, mL_cons,
      add_assoc]

theorem effTarget_eq (s : Selector) : s.effectiveTarget = Spec.effTarget s.opts s.candidates := by
  unfold Selector.effectiveTarget Spec.effTarget
  simp only [varintSize_eq]
  rfl

theorem meets_iff (s : Selector) (X : Finset Nat) :
    Spec.Meets s.opts s.candidates X ↔ Feas s (mX s X) := by
  unfold Feas; rw [effTarget_eq]; exact Iff.rfl
theorem window_iff (s : Selector) (X : Finset Nat) :
    Spec.InWindow s.opts s.candidates X ↔ ¬ Over s (mX s X) := by
  unfold Over upperEff; rw [effTarget_eq, drainWaste_eq]; exact Iff.rfl
theorem score_eq (s : Selector) (X : Finset Nat) : Spec.score s.opts s.candidates X = scoreM s (mX s X) := by
  unfold scoreM wasteM; rw [effTarget_eq, longTerm_eq]; rfl

/-- a solution, as a sublist of the pool -/
theorem solution_sublist {s : Selector} {sort : List (Nat × WV) → List (Nat × WV)}
    (hs : ValidSort s.opts.targetFeerate sort) {X : Finset Nat} (hX : Spec.IsSolution s X) :
    ∃ R, R.Sublist (sort (usefulUnselected s)) ∧ X = s.selected ∪ (R.map (·.1)).toFinset ∧
      Good s (mX s s.selected + mL s R) := by
  refine ⟨(sort (usefulUnselected s)).filter fun e => decide (e.1 ∈ X), List.filter_sublist, ?_⟩
  have hpg := poolGood_of_sort hs
  have hXeq : X = s.selected ∪ (((sort (usefulUnselected s)).filter fun e => decide (e.1 ∈ X)).map (·.1)).toFinset := by
    ext i
    simp only [Finset.mem_union, List.mem_toFinset, List.mem_map, List.mem_filter, decide_eq_true_eq]
    constructor
    · intro hi
      by_cases hsel : i ∈ s.selected
      · exact Or.inl hsel
      · right
        obtain ⟨h1, h2⟩ := hX.adds i hi hsel
        exact ⟨(i, s.candidate i), ⟨(mem_pool hs).2 ⟨h1, hsel, rfl, h2⟩, hi⟩, rfl⟩
    · rintro (h | ⟨e, ⟨_, h⟩, rfl⟩)
      · exact hX.keeps h
      · exact h
  refine ⟨hXeq, ?_⟩
  rw [← mX_union, ← hXeq]
  · exact ⟨(meets_iff s X).1 hX.meets, (window_iff s X).1 hX.window⟩
  · exact (hpg.nodup).sublist (List.filter_sublist.map _)
  · intro e he
    have := (mem_pool hs).1 (List.mem_filter.1 he).1
    exact ⟨this.2.2.1, this.2.1⟩

/-- and conversely -/
theorem sublist_solution {s : Selector} {sort : List (Nat × WV) → List (Nat × WV)}
    (hs : ValidSort s.opts.targetFeerate sort) {R : List (Nat × WV)} (hR : R.Sublist (sort (usefulUnselected s))) :
    mX s (s.selected ∪ (R.map (·.1)).toFinset) = mX s s.selected + mL s R ∧
    s.selected ⊆ s.selected ∪ (R.map (·.1)).toFinset ∧
    ∀ i ∈ s.selected ∪ (R.map (·.1)).toFinset, i ∉ s.selected →
      i < s.candidates.length ∧ 0 < Spec.effCoin s.opts (s.candidates.getD i default) := by
  have hpg := poolGood_of_sort hs
  refine ⟨?_, Finset.subset_union_left, ?_⟩
  · apply mX_union
    · exact hpg.nodup.sublist (hR.map _)
    · intro e he
      have := (mem_pool hs).1 (hR.subset he)
      exact ⟨this.2.2.1, this.2.1⟩
  · intro i hi hn
    rcases Finset.mem_union.1 hi with h | h
    · exact absurd h hn
    · rw [List.mem_toFinset, List.mem_map] at h
      obtain ⟨e, he, rfl⟩ := h
      obtain ⟨h1, h2, h3, h4⟩ := (mem_pool hs).1 (hR.subset he)
      refine ⟨h1, ?_⟩
      rw [h3] at h4
      exact h4

/-- the run as a tree walk -/
theorem bnb_run {s : Selector} {sort : List (Nat × WV) → List (Nat × WV)}
    (hs : ValidSort s.opts.targetFeerate sort) (rounds : Nat) :
    ∃ r, Out s (sort (usefulUnselected s)) 0 s.selected ⊤ r ∧ r.1.length < 2 ^ (s.candidates.length + 1) ∧
      (coinSelectBnb sort rounds s = some (lastOr (r.1.take rounds) none) ∨
       coinSelectBnb sort rounds s = some none ∧ r.2 = ⊤ ∧ ∀ X, ¬ Spec.IsSolution s X) := by
  have hpg := poolGood_of_sort hs
  set pool := sort (usefulUnselected s) with hpool
  refine ⟨visit (bnbStrategy s) pool s pool.length s.selected ⊤, ?_, ?_, ?_⟩
  · have := visit_out hpg pool.length s.selected ⊤ (le_refl _) (by rw [Nat.sub_self]; exact fresh_root hs)
      (by
        rw [Nat.sub_self]
        intro hbo
        obtain ⟨_, _, h0, _⟩ := bailout_true hbo
        omega)
    rwa [Nat.sub_self] at this
  · have h1 := visit_length (strategy := bnbStrategy s) (pool := pool) (s0 := s) pool.length s.selected ⊤
    have h2 : pool.length ≤ s.candidates.length := by
      rw [hpool, (hs _).1.length_eq]
      unfold usefulUnselected Selector.unselected
      refine le_trans (List.length_filter_le _ _) ?_
      rw [List.length_map]
      unfold Selector.unselectedIndexes
      exact le_trans (List.length_filter_le _ _) (by simp)
    have h3 : 2 ^ (pool.length + 1) ≤ 2 ^ (s.candidates.length + 1) := Nat.pow_le_pow_right (by omega) (by omega)
    omega
  · by_cases hearly : s.selectedAbs + (pool.map (·.2.value)).sum < targetAbs s.opts ∨
        s.selectedEff + (pool.map (·.2.eff s.opts.targetFeerate)).sum < s.effectiveTarget
    · right
      refine ⟨?_, ?_, ?_⟩
      · unfold coinSelectBnb
        simp only [← hpool]
        exact if_pos hearly
      · have hst : bnbStrategy s (node pool s 0 s.selected ⊤) = some (.skipBoth, none) := by
          rw [strategy_node, List.drop_zero, if_pos]
          rw [Prod.fst_add, Prod.snd_add, Prod.fst_add, mL_fst, mL_snd]
          exact hearly
        cases hl : pool.length with
        | zero =>
          simp only [visit, hl, hst]; rfl
        | succ n =>
          simp only [visit, hl, Nat.sub_self, hst]; rfl
      · intro X hX
        obtain ⟨R, hR, _, hg⟩ := solution_sublist hs hX
        rw [← hpool] at hR
        obtain ⟨g1, g2, _⟩ := mL_sublist (s0 := s) hR hpg.pos
        rw [← mL_fst s, ← mL_snd s] at hearly
        have hf := hg.1
        unfold Feas at hf
        have e1 : (mX s s.selected).1 = s.selectedAbs := rfl
        have e2 : (mX s s.selected).2.1 = s.selectedEff := rfl
        simp only [Prod.fst_add, Prod.snd_add, e1, e2] at hf
        omega
    · left
      obtain ⟨l, h1, h2, h3⟩ := take_root hpg.toPoolOK (safe_strategy s pool) (fresh_root hs) (⊤ : WithTop Int) rounds
      have : coinSelectBnb sort rounds s =
          (BnbIter.take (bnbStrategy s) rounds ⟨Bnb.new s pool ⊤, false⟩).map lastSome := by
        unfold coinSelectBnb
        simp only [← hpool]
        exact if_neg hearly
      rw [this, h1, Option.map_some, h3]

/-- **C47** `coin_select_bnb` never panics, whatever the limit (and whatever order the unstable sort leaves candidates
of equal effective value in). -/
theorem C47_no_panic (s : Selector) (sort : List (Nat × WV) → List (Nat × WV))
    (hs : ValidSort s.opts.targetFeerate sort) (rounds : Nat) : coinSelectBnb sort rounds s ≠ none := by
  obtain ⟨r, _, _, h | h⟩ := bnb_run hs rounds
  · rw [h]; simp
  · rw [h.1]; simp

/-- **C47** the search ends by itself: beyond `2 ^ (n + 1)` rounds, `n` the number of candidates, a larger limit changes
nothing. -/
theorem C47_terminates (s : Selector) (sort : List (Nat × WV) → List (Nat × WV))
    (hs : ValidSort s.opts.targetFeerate sort) (rounds : Nat) (h : 2 ^ (s.candidates.length + 1) ≤ rounds) :
    coinSelectBnb sort rounds s = coinSelectBnb sort (2 ^ (s.candidates.length + 1)) s := by
  have hrun : ∀ n, 2 ^ (s.candidates.length + 1) ≤ n → ∀ n', 2 ^ (s.candidates.length + 1) ≤ n' →
      ∀ l : List (Option Selector), l.length < 2 ^ (s.candidates.length + 1) → l.take n = l.take n' := by
    intro n hn n' hn' l hl
    rw [List.take_of_length_le (by omega), List.take_of_length_le (by omega)]
  unfold coinSelectBnb
  simp only
  split
  · rfl
  · have hpg := poolGood_of_sort hs
    have hlen := (bnb_run hs 0)
    obtain ⟨l, h1, _, h3⟩ := take_root hpg.toPoolOK (safe_strategy s _) (fresh_root hs) (⊤ : WithTop Int) rounds
    obtain ⟨l', h1', _, h3'⟩ := take_root hpg.toPoolOK (safe_strategy s _) (fresh_root hs) (⊤ : WithTop Int)
      (2 ^ (s.candidates.length + 1))
    rw [h1, h1', Option.map_some, Option.map_some, h3, h3']
    congr 2
    refine hrun _ h _ (le_refl _) _ ?_
    have h1 := visit_length (strategy := bnbStrategy s) (pool := sort (usefulUnselected s)) (s0 := s)
      (sort (usefulUnselected s)).length s.selected ⊤
    have h2 : (sort (usefulUnselected s)).length ≤ s.candidates.length := by
      rw [(hs _).1.length_eq]
      unfold usefulUnselected Selector.unselected
      refine le_trans (List.length_filter_le _ _) ?_
      rw [List.length_map]
      unfold Selector.unselectedIndexes
      exact le_trans (List.length_filter_le _ _) (by simp)
    have h3 : 2 ^ ((sort (usefulUnselected s)).length + 1) ≤ 2 ^ (s.candidates.length + 1) :=
      Nat.pow_le_pow_right (by omega) (by omega)
    omega

theorem lastOr_mem {α : Type} {l : List (Option α)} {acc : Option α} {y : α} (h : lastOr l acc = some y) :
    some y ∈ l ∨ acc = some y := by
  induction l generalizing acc with
  | nil => right; exact h
  | cons x xs ih =>
    rw [lastOr_cons] at h
    rcases ih h with h | h
    · left; exact List.mem_cons_of_mem _ h
    · cases x with
      | none => right; simpa using h
      | some z =>
        left
        simp only [Option.isSome_some, if_true] at h
        rw [h]; exact List.mem_cons_self

/-- **C47** whatever the limit, a returned selector has the same candidates and options and is a solution: it keeps the
coins selected at the start, adds only candidates of positive effective value, and meets both targets within the
bounds. -/
theorem C47_valid (s s' : Selector) (sort : List (Nat × WV) → List (Nat × WV))
    (hs : ValidSort s.opts.targetFeerate sort) (rounds : Nat) (h : coinSelectBnb sort rounds s = some (some s')) :
    s'.opts = s.opts ∧ s'.candidates = s.candidates ∧ Spec.IsSolution s s'.selected := by
  obtain ⟨r, ho, _, hr | hr⟩ := bnb_run hs rounds
  · rw [hr] at h
    rcases lastOr_mem (Option.some.inj h) with hm | hm
    · obtain ⟨R, h1, h2, h3⟩ := ho.items s' (List.mem_of_mem_take hm)
      rw [List.drop_zero] at h1
      obtain ⟨g1, g2, g3⟩ := sublist_solution hs h1
      rw [h2]
      refine ⟨rfl, rfl, g2, g3, ?_, ?_⟩
      · rw [meets_iff, g1]; exact h3.1
      · rw [window_iff, g1]; exact h3.2
    · cases hm
  · rw [hr.1] at h; cases h

theorem counterLen_mono {a b : Nat} (h : a ≤ b) : Spec.counterLen a ≤ Spec.counterLen b := by
  unfold Spec.counterLen; split_ifs <;> omega

theorem sum_getD_range (cs : List WV) (f : WV → Nat) :
    ∑ i ∈ Finset.range cs.length, f (cs.getD i default) = (cs.map f).sum := by
  induction cs with
  | nil => simp
  | cons c cs ih =>
    rw [List.length_cons, Finset.sum_range_succ', List.map_cons, List.sum_cons, ← ih]
    simp only [List.getD_cons_succ, List.getD_cons_zero]
    rw [Nat.add_comm]

/-- the weight the effective target accounts for: the template and the headers for as many inputs as there are candidates -/
def headWeight (o : Opt) (cs : List WV) : Nat :=
  o.baseWeight + ((if cs.any (·.isSegwit) then 2 else 0) + (Spec.counterLen (cs.map (·.inputCount)).sum - 1) * 4)

theorem weight_le_head {o : Opt} {cs : List WV} {X : Finset Nat} (hX : X ⊆ Finset.range cs.length) :
    Spec.weight o cs X ≤ headWeight o cs + ∑ i ∈ X, (cs.getD i default).weight := by
  unfold Spec.weight headWeight
  have e1 : (if ∃ i ∈ X, (cs.getD i default).isSegwit = true then 2 else 0) ≤
      (if cs.any (·.isSegwit) then 2 else 0) := by
    by_cases hc : ∃ i ∈ X, (cs.getD i default).isSegwit = true
    · rw [if_pos hc, if_pos]
      obtain ⟨i, hi, hg⟩ := hc
      have hlt := Finset.mem_range.1 (hX hi)
      rw [List.any_eq_true]
      refine ⟨cs.getD i default, ?_, hg⟩
      rw [List.getD_eq_getElem?_getD, List.getElem?_eq_getElem hlt, Option.getD_some]
      exact List.getElem_mem hlt
    · rw [if_neg hc]; exact Nat.zero_le _
  have e2 : Spec.counterLen (∑ i ∈ X, (cs.getD i default).inputCount) ≤
      Spec.counterLen (cs.map (·.inputCount)).sum := by
    apply counterLen_mono
    rw [← sum_getD_range]
    exact Finset.sum_le_sum_of_subset hX
  omega

theorem head_le_all {o : Opt} {cs : List WV} {X : Finset Nat} (hX : X ⊆ Finset.range cs.length) :
    headWeight o cs + ∑ i ∈ X, (cs.getD i default).weight ≤ Spec.weight o cs (Finset.range cs.length) := by
  unfold Spec.weight headWeight
  have e1 : (if cs.any (·.isSegwit) then 2 else 0) ≤
      (if ∃ i ∈ Finset.range cs.length, (cs.getD i default).isSegwit = true then 2 else 0) := by
    by_cases hc : cs.any (·.isSegwit) = true
    · rw [if_pos hc, if_pos]
      rw [List.any_eq_true] at hc
      obtain ⟨c, hm, hg⟩ := hc
      obtain ⟨i, hi, rfl⟩ := List.getElem_of_mem hm
      refine ⟨i, Finset.mem_range.2 hi, ?_⟩
      rw [List.getD_eq_getElem?_getD, List.getElem?_eq_getElem hi, Option.getD_some]; exact hg
    · rw [if_neg hc]; exact Nat.zero_le _
  have e2 := sum_getD_range cs (·.inputCount)
  have e3 : ∑ i ∈ X, (cs.getD i default).weight ≤ ∑ i ∈ Finset.range cs.length, (cs.getD i default).weight :=
    Finset.sum_le_sum_of_subset hX
  rw [e2]
  omega

theorem effValue_eq (o : Opt) (cs : List WV) (X : Finset Nat) : Spec.effValue o cs X = (Spec.value cs X : Int) -
    ∑ i ∈ X, ⌈Spec.product (cs.getD i default).weight o.targetFeerate⌉ := by
  unfold Spec.effValue Spec.value Spec.effCoin
  rw [Finset.sum_sub_distrib, Nat.cast_sum]

theorem effTarget_head (o : Opt) (cs : List WV) : Spec.effTarget o cs = (o.targetValue.getD 0 : Int) +
    ⌈Spec.product (headWeight o cs) o.targetFeerate⌉ := by
  unfold Spec.effTarget headWeight
  rw [← Nat.add_assoc]

/-- the fees of the parts, together, against the fee of the whole: everyday sizes -/
theorem fee_parts {o : Opt} {cs : List WV} {X : Finset Nat} (hr : 0 ≤ o.targetFeerate) (hf : Spec.IsF32 o.targetFeerate)
    (hX : X ⊆ Finset.range cs.length) (hw : Spec.weight o cs (Finset.range cs.length) ≤ 2 ^ 24)
    (hwr : (Spec.weight o cs (Finset.range cs.length) : ℚ) * o.targetFeerate ≤ 2 ^ 24) :
    (Spec.minFee (Spec.weight o cs X) o.targetFeerate : Int) ≤ ⌈Spec.product (headWeight o cs) o.targetFeerate⌉ +
      ∑ i ∈ X, ⌈Spec.product (cs.getD i default).weight o.targetFeerate⌉ + 1 := by
  have h1 := weight_le_head (o := o) hX
  have h2 := head_le_all (o := o) hX
  set W := headWeight o cs + ∑ i ∈ X, (cs.getD i default).weight with hW
  have h2' : (W : ℚ) ≤ Spec.weight o cs (Finset.range cs.length) := by exact_mod_cast h2
  have hWr : (W : ℚ) * o.targetFeerate ≤ 2 ^ 24 := le_trans (mul_le_mul_of_nonneg_right h2' hr) hwr
  have e1 : (Spec.minFee (Spec.weight o cs X) o.targetFeerate : Int) ≤ Spec.minFee W o.targetFeerate := by
    exact_mod_cast minFee_mono hr h1
  have e2 : (Spec.minFee W o.targetFeerate : Int) ≤ ⌈(W : ℚ) * o.targetFeerate⌉ := by
    rw [minFee_cast hr]; exact ceil_product_le (by omega) hr hWr
  refine le_trans e1 (le_trans e2 (Int.ceil_le.2 ?_))
  have e3 := ceil_relative (w := headWeight o cs) (r := o.targetFeerate) (by omega) hf hr
  have e4 : ∑ i ∈ X, ((cs.getD i default).weight : ℚ) * o.targetFeerate * (1 - 1 / 2 ^ 24) ≤
      ∑ i ∈ X, (⌈Spec.product (cs.getD i default).weight o.targetFeerate⌉ : ℚ) := by
    apply Finset.sum_le_sum
    intro i hi
    refine ceil_relative ?_ hf hr
    have : (cs.getD i default).weight ≤ ∑ i ∈ X, (cs.getD i default).weight :=
      Finset.single_le_sum (f := fun i => (cs.getD i default).weight) (fun _ _ => Nat.zero_le _) hi
    omega
  rw [← Finset.sum_mul, ← Finset.sum_mul] at e4
  push_cast
  have e5 : (W : ℚ) = headWeight o cs + ∑ i ∈ X, ((cs.getD i default).weight : ℚ) := by rw [hW]; push_cast; rfl
  rw [e5] at hWr ⊢
  linarith

/-- nothing is rounded: the fees of the parts are enough -/
theorem fee_parts_exact {o : Opt} {cs : List WV} {X : Finset Nat} (hr : 0 ≤ o.targetFeerate)
    (hX : X ⊆ Finset.range cs.length)
    (hex : ∀ w ≤ Spec.weight o cs (Finset.range cs.length), Spec.product w o.targetFeerate = w * o.targetFeerate) :
    (Spec.minFee (Spec.weight o cs X) o.targetFeerate : Int) ≤ ⌈Spec.product (headWeight o cs) o.targetFeerate⌉ +
      ∑ i ∈ X, ⌈Spec.product (cs.getD i default).weight o.targetFeerate⌉ := by
  have h1 := weight_le_head (o := o) hX
  have h2 := head_le_all (o := o) hX
  set W := headWeight o cs + ∑ i ∈ X, (cs.getD i default).weight with hW
  have e1 : (Spec.minFee (Spec.weight o cs X) o.targetFeerate : Int) ≤ Spec.minFee W o.targetFeerate := by
    exact_mod_cast minFee_mono hr h1
  refine le_trans e1 ?_
  rw [minFee_cast hr, hex W h2]
  refine Int.ceil_le.2 ?_
  have e3 := Int.le_ceil (Spec.product (headWeight o cs) o.targetFeerate)
  rw [hex (headWeight o cs) (by omega)] at e3 ⊢
  have e4 : ∑ i ∈ X, ((cs.getD i default).weight : ℚ) * o.targetFeerate ≤
      ∑ i ∈ X, (⌈Spec.product (cs.getD i default).weight o.targetFeerate⌉ : ℚ) := by
    apply Finset.sum_le_sum
    intro i hi
    have : (cs.getD i default).weight ≤ ∑ i ∈ X, (cs.getD i default).weight :=
      Finset.single_le_sum (f := fun i => (cs.getD i default).weight) (fun _ _ => Nat.zero_le _) hi
    rw [← hex _ (by omega : (cs.getD i default).weight ≤ _)]
    exact Int.le_ceil _
  rw [← Finset.sum_mul] at e4
  push_cast
  have e5 : (W : ℚ) = headWeight o cs + ∑ i ∈ X, ((cs.getD i default).weight : ℚ) := by rw [hW]; push_cast; rfl
  rw [e5]
  linarith

theorem solution_in_range {s : Selector} {X : Finset Nat} (hin : s.selected ⊆ Finset.range s.candidates.length)
    (h : Spec.IsSolution s X) : X ⊆ Finset.range s.candidates.length := by
  intro i hi
  by_cases hsel : i ∈ s.selected
  · exact hin hsel
  · exact Finset.mem_range.2 (h.adds i hi hsel).1

/-- **C47** everyday sizes (all candidates together weigh at most 2^24 and cost at most 2^24 satoshis): a selector returned for a
selection with recipients finishes (so the transaction pays the fee due at the target rate and the absolute minimum fee, by
`C45_sound`), or `finish` refuses it for want of exactly one satoshi of fee (`C66_bnb_one_short` shows that it can happen). -/
theorem C47_finishes (s s' : Selector) (sort : List (Nat × WV) → List (Nat × WV))
    (hs : ValidSort s.opts.targetFeerate sort) (rounds : Nat) (v : Nat) (hv : s.opts.targetValue = some v)
    (hr : 0 ≤ s.opts.targetFeerate) (hf : Spec.IsF32 s.opts.targetFeerate)
    (hin : s.selected ⊆ Finset.range s.candidates.length)
    (hw : Spec.weight s.opts s.candidates (Finset.range s.candidates.length) ≤ 2 ^ 24)
    (hwr : (Spec.weight s.opts s.candidates (Finset.range s.candidates.length) : ℚ) * s.opts.targetFeerate ≤ 2 ^ 24)
    (h : coinSelectBnb sort rounds s = some (some s')) :
    (∃ sel, s'.finish = some (.ok sel)) ∨
    s'.finish = some (.error ⟨Spec.value s.candidates s'.selected, 1, .targetFee⟩) := by
  obtain ⟨h1, h2, h3⟩ := C47_valid s s' sort hs rounds h
  have hX := solution_in_range hin h3
  have hp := fee_parts hr hf hX hw hwr
  obtain ⟨m1, m2⟩ := h3.meets
  rw [effValue_eq, effTarget_head] at m2
  rw [hv, Option.getD_some] at m1 m2
  by_cases hsuf : Spec.required s'.opts s'.candidates s'.selected ≤ Spec.value s'.candidates s'.selected
  · exact .inl (C45_sufficient s' v (by rw [h1]; exact hv) hsuf)
  · right
    obtain ⟨e, he⟩ := C45_insufficient s' (not_le.1 hsuf)
    obtain ⟨g1, g2, g3, g4, g5, g6⟩ := C45_error_iff s' e he
    rw [h1, h2] at g1 g4 g5
    rw [h2] at g2
    unfold Spec.required at g1 g4
    rw [hv] at g1 g4
    simp only [Option.getD_some] at g1 g4
    have hm : e.missing = 1 := by omega
    have hc : e.constraint = .targetFee := by
      cases hc : e.constraint with
      | targetFee => rfl
      | targetValue => rw [hc] at g5; simp only [Spec.missing, hv, Option.getD_some] at g5; omega
      | minAbsoluteFee => rw [hc] at g5; simp only [Spec.missing, hv, Option.getD_some] at g5; omega
      | minDrainValue => rw [hc] at g5; simp only [Spec.missing, hv] at g5; omega
    rw [he]
    obtain ⟨a, b, c⟩ := e
    simp only at hm hc g2
    rw [hm, hc, g2]

/-- **C47** at a rate `k / 2 ^ j` (such as 1/4, one satoshi per virtual byte), with the weight of all candidates times `k` at most
2^24, nothing is rounded and a selector returned for a selection with recipients always finishes. -/
theorem C47_finishes_exact (s s' : Selector) (sort : List (Nat × WV) → List (Nat × WV))
    (hs : ValidSort s.opts.targetFeerate sort) (rounds : Nat) (v : Nat) (hv : s.opts.targetValue = some v)
    (k j : Nat) (hrate : s.opts.targetFeerate = k / 2 ^ j) (hj : j ≤ 149)
    (hin : s.selected ⊆ Finset.range s.candidates.length)
    (hw : Spec.weight s.opts s.candidates (Finset.range s.candidates.length) ≤ 2 ^ 24)
    (hwk : Spec.weight s.opts s.candidates (Finset.range s.candidates.length) * k ≤ 2 ^ 24)
    (h : coinSelectBnb sort rounds s = some (some s')) :
    ∃ sel, s'.finish = some (.ok sel) := by
  have hr : 0 ≤ s.opts.targetFeerate := by rw [hrate]; positivity
  obtain ⟨h1, h2, h3⟩ := C47_valid s s' sort hs rounds h
  have hX := solution_in_range hin h3
  have hp := fee_parts_exact hr hX fun w hw' => product_dyadic hrate hj (by omega) (le_trans (Nat.mul_le_mul_right k hw') hwk)
  obtain ⟨m1, m2⟩ := h3.meets
  rw [effValue_eq, effTarget_head] at m2
  rw [hv, Option.getD_some] at m1 m2
  apply C45_sufficient s' v (by rw [h1]; exact hv)
  rw [h1, h2]
  unfold Spec.required
  rw [hv]
  simp only [Option.getD_some]
  omega

/-- **C47** the search engine itself, with any caller-supplied strategy that does not panic and does not ask to
continue at the end of the pool: over a pool of distinct unselected candidates it never panics, and ends after fewer
than `2 ^ (n + 1)` items, `n` the size of the pool. -/
theorem C47_engine {S : Type} [LinearOrder S] (strategy : Decide S) (s : Selector) (pool : List (Nat × WV)) (best : S)
    (hnd : (pool.map (·.1)).Nodup) (hr : ∀ e ∈ pool, e.1 < s.candidates.length ∧ e.1 ∉ s.selected)
    (hstrat : ∀ b : Bnb S, b.pool = pool → b.poolPos ≤ pool.length →
      ∃ d, strategy b = some d ∧ (b.poolPos = pool.length → d.1 = .skipBoth)) (rounds : Nat) :
    ∃ l, BnbIter.take strategy rounds ⟨Bnb.new s pool best, false⟩ = some l ∧ l.length < 2 ^ (pool.length + 1) := by
  obtain ⟨l, h1, h2, _⟩ := take_root (strategy := strategy) (pool := pool) (s0 := s)
    ⟨hnd, fun e he => (hr e he).1⟩ (fun p X b hp _ => hstrat _ rfl hp) (fun e he => (hr e (by simpa using he)).2)
    best rounds
  exact ⟨l, h1, by omega⟩

/-- **C48** the search is exhaustive: given enough rounds it returns a selector exactly when a solution exists. -/
theorem C48_complete (s : Selector) (sort : List (Nat × WV) → List (Nat × WV))
    (hs : ValidSort s.opts.targetFeerate sort) (rounds : Nat) (h : 2 ^ (s.candidates.length + 1) ≤ rounds) :
    coinSelectBnb sort rounds s = some none ↔ ∀ X, ¬ Spec.IsSolution s X := by
  obtain ⟨r, ho, hl, hr | hr⟩ := bnb_run hs rounds
  · rw [List.take_of_length_le (by omega)] at hr
    constructor
    · intro hn X hX
      rw [hr] at hn
      have hn' := Option.some.inj hn
      obtain ⟨R, h1, _, hg⟩ := solution_sublist hs hX
      obtain ⟨j, _, h2⟩ := ho.cov R (by rw [List.drop_zero]; exact h1) hg
      rcases ho.last with ⟨g1, _⟩ | ⟨Y, _, g2, _⟩
      · rw [g1] at h2
        exact absurd h2 (by simp)
      · rw [g2] at hn'; cases hn'
    · intro hX
      rw [hr]
      cases hx : lastOr r.1 none with
      | none => rfl
      | some Y =>
        exfalso
        have hv := C47_valid s Y sort hs rounds (by rw [hr, hx])
        exact hX _ hv.2.2
  · rw [hr.1]
    exact ⟨fun _ => hr.2.2, fun _ => rfl⟩

theorem bnb_best {s s' : Selector} {sort : List (Nat × WV) → List (Nat × WV)}
    (hs : ValidSort s.opts.targetFeerate sort) {rounds : Nat} (h : 2 ^ (s.candidates.length + 1) ≤ rounds)
    (hb : coinSelectBnb sort rounds s = some (some s')) {R : List (Nat × WV)}
    (hR : R.Sublist (sort (usefulUnselected s))) (hg : Good s (mX s s.selected + mL s R)) :
    ∃ j, Feas s (mX s s.selected + mL s (R.take j)) ∧
      Spec.score s.opts s.candidates s'.selected ≤ scoreM s (mX s s.selected + mL s (R.take j)) := by
  obtain ⟨r, ho, hl, hr | hr⟩ := bnb_run hs rounds
  · rw [List.take_of_length_le (by omega)] at hr
    rw [hr] at hb
    have hb' := Option.some.inj hb
    obtain ⟨j, h1, h2⟩ := ho.cov R (by rw [List.drop_zero]; exact hR) hg
    refine ⟨j, h1, ?_⟩
    rcases ho.last with ⟨g1, g2⟩ | ⟨Y, _, g2, g3⟩
    · rw [lastOr_none g2] at hb'; cases hb'
    · rw [g2] at hb'
      have := Option.some.inj hb'
      subst this
      rw [g3, WithTop.coe_le_coe] at h2
      rw [score_eq]; exact h2
  · rw [hr.1] at hb; cases hb

/-- **C48** when the long term rate is not above the target rate, the returned selection has the least waste of *all*
solutions. -/
theorem C48_optimal (s s' : Selector) (sort : List (Nat × WV) → List (Nat × WV))
    (hs : ValidSort s.opts.targetFeerate sort) (rounds : Nat) (h : 2 ^ (s.candidates.length + 1) ≤ rounds)
    (hrate : Spec.laterRate s.opts ≤ s.opts.targetFeerate)
    (hb : coinSelectBnb sort rounds s = some (some s')) (X : Finset Nat) (hX : Spec.IsSolution s X) :
    Spec.score s.opts s.candidates s'.selected ≤ Spec.score s.opts s.candidates X := by
  obtain ⟨R, hR, hXR, hg⟩ := solution_sublist hs hX
  obtain ⟨j, _, h2⟩ := bnb_best hs h hb hR hg
  refine le_trans h2 ?_
  have hXm : mX s X = mX s s.selected + mL s R := by rw [hXR]; exact (sublist_solution hs hR).1
  rw [score_eq, hXm]
  obtain ⟨g1, g2, g3⟩ := mL_sublist (s0 := s) (List.take_sublist j R)
    (fun e he => (poolGood_of_sort hs).pos e (hR.subset he))
  unfold scoreM
  have hw : wasteM s (mX s s.selected + mL s (R.take j)) ≤ wasteM s (mX s s.selected + mL s R) := by
    unfold wasteM
    apply truncI_mono
    refine product_mono ?_ (f32_nonneg (by rw [longTerm_eq]; linarith))
    simp only [Prod.snd_add]
    exact Nat.add_le_add_left g3 _
  simp only [Prod.snd_add, Prod.fst_add]
  omega

/-- **C48** whatever the rates, no solution from which no added coin can be dropped (without missing a target) has less
waste than the returned one. -/
theorem C48_minimal (s s' : Selector) (sort : List (Nat × WV) → List (Nat × WV))
    (hs : ValidSort s.opts.targetFeerate sort) (rounds : Nat) (h : 2 ^ (s.candidates.length + 1) ≤ rounds)
    (hb : coinSelectBnb sort rounds s = some (some s')) (X : Finset Nat) (hX : Spec.IsSolution s X)
    (hmin : ∀ i ∈ X, i ∉ s.selected → ¬ Spec.Meets s.opts s.candidates (X.erase i)) :
    Spec.score s.opts s.candidates s'.selected ≤ Spec.score s.opts s.candidates X := by
  obtain ⟨R, hR, hXR, hg⟩ := solution_sublist hs hX
  obtain ⟨j, h1, h2⟩ := bnb_best hs h hb hR hg
  have hXm : mX s X = mX s s.selected + mL s R := by rw [hXR]; exact (sublist_solution hs hR).1
  by_cases hj : R.length ≤ j
  · rw [List.take_of_length_le hj] at h2
    rw [score_eq s X, hXm]; exact h2
  · exfalso
    have hlt : j < R.length := not_le.1 hj
    have hmem : R[j] ∈ R := List.getElem_mem hlt
    have hpl := (mem_pool hs).1 (hR.subset hmem)
    have hiX : R[j].1 ∈ X := by
      rw [hXR, Finset.mem_union, List.mem_toFinset]
      exact Or.inr (List.mem_map_of_mem hmem)
    apply hmin R[j].1 hiX hpl.2.1
    -- X without R[j] has the measures of R without its j-th entry, of which `R.take j` is a sublist
    have hm : mX s X = mX s (X.erase R[j].1) + mc s R[j] := by
      rw [← mX_insert hpl.2.2.1 (Finset.notMem_erase _ _), Finset.insert_erase hiX]
    have hRe : mL s R = mL s (R.take j ++ R.drop (j + 1)) + mc s R[j] := by
      have : ∀ (A B : List (Nat × WV)), mL s (A ++ B) = mL s A + mL s B := by
        intro A B; simp [mL]
      rw [this]
      conv_lhs => rw [← List.take_append_drop j R, this, List.drop_eq_getElem_cons hlt, mL_cons]
      rw [add_right_comm, ← add_assoc]
    have hsub := mL_sublist (s0 := s) (List.sublist_append_left (R.take j) (R.drop (j + 1))) (by
      intro e he
      refine (poolGood_of_sort hs).pos e (hR.subset ?_)
      rcases List.mem_append.1 he with he | he
      · exact List.mem_of_mem_take he
      · exact List.mem_of_mem_drop he)
    rw [hXm, hRe, ← add_assoc] at hm
    have hm' := add_right_cancel hm
    rw [meets_iff, ← hm']
    unfold Feas at h1 ⊢
    simp only [Prod.fst_add, Prod.snd_add] at h1 ⊢
    omega

/-! Concrete runs. -/

/-- a sort allowed by `ValidSort` -/
def exSort (rate : ℚ) (l : List (Nat × WV)) : List (Nat × WV) :=
  l.insertionSort fun a b => b.2.eff rate ≤ a.2.eff rate

theorem exSort_valid (rate : ℚ) : ValidSort rate (exSort rate) := by
  intro l
  refine ⟨List.perm_insertionSort _ _, ?_⟩
  have : Std.Total (fun a b : Nat × WV => b.2.eff rate ≤ a.2.eff rate) := ⟨fun a b => le_total _ _⟩
  have : IsTrans (Nat × WV) (fun a b : Nat × WV => b.2.eff rate ≤ a.2.eff rate) := ⟨fun a b c h1 h2 => le_trans h2 h1⟩
  exact List.pairwise_insertionSort _ _

/-- five coins, two of them alike, one worth less than its fee -/
def exBnb (longTerm : Option ℚ) : Selector :=
  Selector.new [⟨400, 100, 1, true⟩, ⟨1000, 100, 1, true⟩, ⟨10, 100, 1, true⟩, ⟨400, 100, 1, true⟩, ⟨250, 100, 1, false⟩]
    { exOpt (some 700) 0 with longTermFeerate := longTerm }

/-- the search runs through several rounds and returns the two coins of 400 (indexes 0 and 3); the hypotheses of
`C47_valid`, `C47_finishes`, `C48_optimal` and `C48_minimal` are met. -/
example : (coinSelectBnb (exSort (1 / 4)) 64 (exBnb none)).map (fun r => r.map (·.selected)) = some (some {0, 3}) ∧
    (coinSelectBnb (exSort (1 / 4)) 2 (exBnb none)).map (fun r => r.map (·.selected)) = some none ∧
    2 ^ ((exBnb none).candidates.length + 1) = 64 ∧ Spec.laterRate (exBnb none).opts ≤ (exBnb none).opts.targetFeerate := by
  decide +kernel

/-- a solution of the same selector (for `C48_complete`, `C48_optimal`, `C48_minimal`), minimal in the sense of
`C48_minimal` -/
example : Spec.IsSolution (exBnb none) {0, 3} ∧
    ∀ i ∈ ({0, 3} : Finset Nat), i ∉ (exBnb none).selected →
      ¬ Spec.Meets (exBnb none).opts (exBnb none).candidates (({0, 3} : Finset Nat).erase i) := by
  refine ⟨⟨?_, ?_, ?_, ?_⟩, ?_⟩
  · exact Finset.empty_subset _
  · decide +kernel
  · unfold Spec.Meets; decide +kernel
  · unfold Spec.InWindow; decide +kernel
  · unfold Spec.Meets; decide +kernel

/-- a selector whose coins are cheaper to spend now than later -/
def exLater : Selector :=
  Selector.new [⟨1000, 100, 1, false⟩, ⟨60, 100, 1, false⟩]
    { exOpt (some 900) 0 with longTermFeerate := some 10 }

/-- **C48, limit of the claim** when the long term rate is above the target rate the result need not be optimal: the
search stops at the first coin, although adding the second one has less waste. -/
theorem C48_not_optimal :
    (coinSelectBnb (exSort (1 / 4)) 8 exLater).map (fun r => r.map (·.selected)) = some (some {0}) ∧
    Spec.IsSolution exLater {0, 1} ∧
    Spec.score exLater.opts exLater.candidates {0, 1} < Spec.score exLater.opts exLater.candidates {0} := by
  refine ⟨by decide +kernel, ⟨?_, ?_, ?_, ?_⟩, ?_⟩
  · exact Finset.empty_subset _
  · decide +kernel
  · unfold Spec.Meets; decide +kernel
  · unfold Spec.InWindow; decide +kernel
  · decide +kernel

/-- a selector with a high absolute minimum fee and a coin that costs more than it is worth at the target rate -/
def exFloor : Selector :=
  Selector.new [⟨2900, 100, 1, false⟩, ⟨110, 1000, 1, false⟩] (exOpt (some 1000) 2000)

/-- **C48, limit of the claim** coins of negative effective value are never tried, so a selection that meets both
targets within the bounds can be missed when the absolute minimum fee is what counts. -/
theorem C48_negative_coins_ignored :
    coinSelectBnb (exSort (1 / 4)) 8 exFloor = some none ∧
    Spec.Meets exFloor.opts exFloor.candidates {0, 1} ∧ Spec.InWindow exFloor.opts exFloor.candidates {0, 1} := by
  have h : ∀ r : Option (Option Selector), (r.map (fun o => o.isNone)) = some true → r = some none := by
    intro r hr
    cases r with
    | none => cases hr
    | some o => cases o with
      | none => rfl
      | some x => simp at hr
  refine ⟨h _ (by decide +kernel), ?_, ?_⟩
  · unfold Spec.Meets; decide +kernel
  · unfold Spec.InWindow; decide +kernel

/-- the hypotheses of `C47_engine`: the strategy of `coin_select_bnb` replaced by one that always continues until the
end of the pool -/
example : ∀ b : Bnb (WithTop Int), b.pool = usefulUnselected (exBnb none) → b.poolPos ≤ (usefulUnselected (exBnb none)).length →
    ∃ d, (fun b : Bnb (WithTop Int) => some (if b.poolPos < b.pool.length then (Branch.continue, none) else (.skipBoth, some ((0 : Int) : WithTop Int)))) b = some d ∧
      (b.poolPos = (usefulUnselected (exBnb none)).length → d.1 = .skipBoth) := by
  intro b hb hp
  refine ⟨_, rfl, ?_⟩
  intro h
  have : ¬ b.poolPos < b.pool.length := by rw [h, hb]; exact lt_irrefl _
  simp [this]

end Verif.CoinSelect
