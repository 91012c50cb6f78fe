import Verif.Lemmas.Fee
import Mathlib.Tactic.Linarith
import Mathlib.Tactic.Ring

/-! # Lemmas about `finish` and `select_until_finished` -/

namespace Verif.CoinSelect

theorem varintSize_eq (v : Nat) : varintSize v = Spec.counterLen v := by
  unfold varintSize Spec.counterLen; split_ifs <;> omega

theorem longTerm_eq (o : Opt) : o.longTerm = Spec.laterRate o := by
  unfold Opt.longTerm Spec.laterRate; cases o.longTermFeerate <;> rfl

theorem drainWaste_eq (o : Opt) : o.drainWaste = Spec.changeCost o := by
  unfold Opt.drainWaste Spec.changeCost Spec.wholeSats truncI; rw [longTerm_eq]; rfl

theorem feeU_eq (w : Nat) (r : ℚ) : feeU w r = Spec.minFee w r := by
  rw [feeU, Spec.minFee, Int.ceil_toNat, mulF_eq]

theorem maxByKey_foldl {α : Type} (key : α → Nat) (xs : List α) (x : α) :
    let b := xs.foldl (fun best y => if key best ≤ key y then y else best) x
    b ∈ x :: xs ∧ ∀ y ∈ x :: xs, key y ≤ key b := by
  induction xs generalizing x with
  | nil => simp
  | cons a as ih =>
    simp only [List.foldl_cons]
    by_cases h : key x ≤ key a
    · rw [if_pos h]
      obtain ⟨h1, h2⟩ := ih a
      refine ⟨List.mem_cons_of_mem _ h1, ?_⟩
      intro y hy
      rcases List.mem_cons.1 hy with rfl | hy
      · exact le_trans h (h2 a List.mem_cons_self)
      · exact h2 y hy
    · rw [if_neg h]
      obtain ⟨h1, h2⟩ := ih x
      refine ⟨?_, ?_⟩
      · rcases List.mem_cons.1 h1 with h1 | h1
        · rw [h1]; exact List.mem_cons_self
        · exact List.mem_cons_of_mem _ (List.mem_cons_of_mem _ h1)
      · intro y hy
        rcases List.mem_cons.1 hy with rfl | hy
        · exact h2 y List.mem_cons_self
        · rcases List.mem_cons.1 hy with rfl | hy
          · exact le_trans (le_of_lt (not_le.1 h)) (h2 x List.mem_cons_self)
          · exact h2 y (List.mem_cons_of_mem _ hy)

theorem maxByKey_some {α : Type} {key : α → Nat} {l : List α} {b : α} (h : maxByKey key l = some b) :
    b ∈ l ∧ ∀ y ∈ l, key y ≤ key b := by
  cases l with
  | nil => simp [maxByKey] at h
  | cons x xs =>
    have := maxByKey_foldl key xs x
    simp only [maxByKey, Option.some.injEq] at h
    subst h
    exact this

theorem maxByKey_none {α : Type} {key : α → Nat} {l : List α} : maxByKey key l = none ↔ l = [] := by
  cases l <;> simp [maxByKey]

theorem minByKey_foldl {α : Type} (key : α → Int) (xs : List α) (x : α) :
    let b := xs.foldl (fun best y => if key y < key best then y else best) x
    b ∈ x :: xs ∧ ∀ y ∈ x :: xs, key b ≤ key y := by
  induction xs generalizing x with
  | nil => simp
  | cons a as ih =>
    simp only [List.foldl_cons]
    by_cases h : key a < key x
    · rw [if_pos h]
      obtain ⟨h1, h2⟩ := ih a
      refine ⟨List.mem_cons_of_mem _ h1, ?_⟩
      intro y hy
      rcases List.mem_cons.1 hy with rfl | hy
      · exact le_trans (h2 a List.mem_cons_self) (le_of_lt h)
      · exact h2 y hy
    · rw [if_neg h]
      obtain ⟨h1, h2⟩ := ih x
      refine ⟨?_, ?_⟩
      · rcases List.mem_cons.1 h1 with h1 | h1
        · rw [h1]; exact List.mem_cons_self
        · exact List.mem_cons_of_mem _ (List.mem_cons_of_mem _ h1)
      · intro y hy
        rcases List.mem_cons.1 hy with rfl | hy
        · exact h2 y List.mem_cons_self
        · rcases List.mem_cons.1 hy with rfl | hy
          · exact le_trans (h2 x List.mem_cons_self) (not_lt.1 h)
          · exact h2 y (List.mem_cons_of_mem _ hy)

theorem minByKey_some {α : Type} {key : α → Int} {l : List α} {b : α} (h : minByKey key l = some b) :
    b ∈ l ∧ ∀ y ∈ l, key b ≤ key y := by
  cases l with
  | nil => simp [minByKey] at h
  | cons x xs =>
    have := minByKey_foldl key xs x
    simp only [minByKey, Option.some.injEq] at h
    subst h
    exact this

theorem minByKey_ne_none {α : Type} {key : α → Int} {l : List α} (h : l ≠ []) : ∃ b, minByKey key l = some b := by
  cases l with
  | nil => exact absurd rfl h
  | cons x xs => exact ⟨_, rfl⟩

namespace Selector
variable (s : Selector)

theorem selectedAbs_eq : s.selectedAbs = Spec.value s.candidates s.selected := rfl

theorem currentWeight_eq : s.currentWeight = Spec.weight s.opts s.candidates s.selected := by
  unfold currentWeight Spec.weight
  rw [Nat.mul_comm 4, varintSize_eq]; rfl

theorem shortfalls_eq : s.shortfalls (feeU s.currentWeight s.opts.targetFeerate)
      (feeU (s.currentWeight + s.opts.drainWeight) s.opts.targetFeerate) =
    [(.targetValue, Spec.missing s.opts s.candidates s.selected .targetValue),
     (.targetFee, Spec.missing s.opts s.candidates s.selected .targetFee),
     (.minAbsoluteFee, Spec.missing s.opts s.candidates s.selected .minAbsoluteFee),
     (.minDrainValue, Spec.missing s.opts s.candidates s.selected .minDrainValue)] := by
  simp only [shortfalls, Spec.missing, feeU_eq, currentWeight_eq, selectedAbs_eq, Opt.target]
  cases s.opts.targetValue <;> simp

theorem mem_shortfalls (c : Constraint) : (c, Spec.missing s.opts s.candidates s.selected c) ∈
    s.shortfalls (feeU s.currentWeight s.opts.targetFeerate)
      (feeU (s.currentWeight + s.opts.drainWeight) s.opts.targetFeerate) := by
  rw [shortfalls_eq]; cases c <;> simp

theorem of_mem_shortfalls {x : Constraint × Nat} (h : x ∈ s.shortfalls (feeU s.currentWeight s.opts.targetFeerate)
      (feeU (s.currentWeight + s.opts.drainWeight) s.opts.targetFeerate)) :
    x.2 = Spec.missing s.opts s.candidates s.selected x.1 := by
  rw [shortfalls_eq] at h
  simp only [List.mem_cons, List.not_mem_nil, or_false] at h
  rcases h with rfl | rfl | rfl | rfl <;> rfl

theorem required_eq_max {o : Opt} {cs : List WV} {X : Finset Nat} :
    (∀ c, Spec.missing o cs X c ≤ Spec.required o cs X - Spec.value cs X) ∧
    ((∀ c, Spec.missing o cs X c = 0) → Spec.required o cs X ≤ Spec.value cs X) ∧
    (∃ c, Spec.missing o cs X c = Spec.required o cs X - Spec.value cs X) := by
  unfold Spec.required
  cases h : o.targetValue with
  | none =>
    refine ⟨?_, ?_, ?_⟩
    · intro c; cases c <;> simp only [Spec.missing, h] <;> omega
    · intro hc
      have h1 := hc .targetFee
      have h2 := hc .minAbsoluteFee
      have h3 := hc .minDrainValue
      simp only [Spec.missing, h] at h1 h2 h3
      simp only; omega
    · by_contra hn
      push Not at hn
      have h1 := hn .targetFee
      have h2 := hn .minAbsoluteFee
      have h3 := hn .minDrainValue
      simp only [Spec.missing, h] at h1 h2 h3
      omega
  | some v =>
    refine ⟨?_, ?_, ?_⟩
    · intro c; cases c <;> simp only [Spec.missing, h] <;> omega
    · intro hc
      have h1 := hc .targetFee
      have h2 := hc .minAbsoluteFee
      simp only [Spec.missing, h] at h1 h2
      simp only; omega
    · by_contra hn
      push Not at hn
      have h1 := hn .targetFee
      have h2 := hn .minAbsoluteFee
      simp only [Spec.missing, h] at h1 h2
      omega

/-- the error branch of `finish` -/
theorem finish_err (h : Spec.value s.candidates s.selected < Spec.required s.opts s.candidates s.selected) :
    ∃ c, s.finish = some (.error ⟨Spec.value s.candidates s.selected,
        Spec.required s.opts s.candidates s.selected - Spec.value s.candidates s.selected, c⟩) ∧
      Spec.missing s.opts s.candidates s.selected c =
        Spec.required s.opts s.candidates s.selected - Spec.value s.candidates s.selected := by
  obtain ⟨q1, q2, c0, q3⟩ := @required_eq_max s.opts s.candidates s.selected
  have hm : (c0, Spec.missing s.opts s.candidates s.selected c0) ∈
      ((s.shortfalls (feeU s.currentWeight s.opts.targetFeerate)
      (feeU (s.currentWeight + s.opts.drainWeight) s.opts.targetFeerate)).filter fun x => decide (0 < x.2)) := by
    rw [List.mem_filter]
    refine ⟨s.mem_shortfalls c0, ?_⟩
    rw [decide_eq_true_iff, q3]; omega
  cases hx : maxByKey (·.2) ((s.shortfalls (feeU s.currentWeight s.opts.targetFeerate)
      (feeU (s.currentWeight + s.opts.drainWeight) s.opts.targetFeerate)).filter fun x => decide (0 < x.2)) with
  | none =>
    rw [maxByKey_none] at hx
    rw [hx] at hm; cases hm
  | some x =>
    obtain ⟨h1, h2⟩ := maxByKey_some hx
    have h3 := s.of_mem_shortfalls (List.mem_filter.1 h1).1
    have h4 := h2 _ hm
    simp only at h4
    rw [q3] at h4
    have h5 := q1 x.1
    have h6 : x.2 = Spec.required s.opts s.candidates s.selected - Spec.value s.candidates s.selected := by omega
    refine ⟨x.1, ?_, by rw [← h3, h6]⟩
    simp only [finish]
    rw [hx, ← h6]
    rfl

/-- the other branch of `finish` -/
theorem finish_ok (h : Spec.required s.opts s.candidates s.selected ≤ Spec.value s.candidates s.selected) :
    let fee := max (Spec.minFee (Spec.weight s.opts s.candidates s.selected) s.opts.targetFeerate)
      s.opts.minAbsoluteFee
    let imo := Spec.value s.candidates s.selected - s.opts.target
    let strategies := s.noDrainStrategies fee (imo - fee) (Spec.weight s.opts s.candidates s.selected)
        s.selectedWaste
      ++ s.drainStrategies (Spec.drainFee s.opts s.candidates s.selected) imo
        (Spec.weight s.opts s.candidates s.selected + s.opts.drainWeight) s.selectedWaste
    s.opts.target + fee ≤ Spec.value s.candidates s.selected ∧
    s.finish = if strategies = [] then none
      else some (.ok { selected := s.selected, excess := imo - fee, strategies }) := by
  intro fee imo strategies
  obtain ⟨q1, q2, c0, q3⟩ := @required_eq_max s.opts s.candidates s.selected
  have hge : s.opts.target + fee ≤ Spec.value s.candidates s.selected := by
    refine le_trans ?_ h
    unfold Spec.required Opt.target
    cases s.opts.targetValue <;> simp only [fee] <;> omega
  refine ⟨hge, ?_⟩
  have hx : maxByKey (·.2) ((s.shortfalls (feeU s.currentWeight s.opts.targetFeerate)
      (feeU (s.currentWeight + s.opts.drainWeight) s.opts.targetFeerate)).filter fun x => decide (0 < x.2)) = none := by
    rw [maxByKey_none, List.filter_eq_nil_iff]
    intro x hx
    have h3 := s.of_mem_shortfalls hx
    have h4 := q1 x.1
    rw [decide_eq_true_iff]
    omega
  have hs1 : subU s.selectedAbs s.opts.target = some imo := by
    rw [subU, selectedAbs_eq, if_pos (by omega)]
  have hs2 : subU imo (max (feeU s.currentWeight s.opts.targetFeerate) s.opts.minAbsoluteFee) = some (imo - fee) := by
    rw [currentWeight_eq, feeU_eq, subU, if_pos (by show fee ≤ _; omega)]
  simp only [finish]
  rw [hx]
  simp only [hs1, hs2, Option.bind_some]
  simp only [currentWeight_eq, feeU_eq]
  rfl

end Selector
end Verif.CoinSelect
