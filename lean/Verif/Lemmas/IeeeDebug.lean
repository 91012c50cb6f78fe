import Verif.Lemmas.IeeeSelect

/-! # What a debug build of `finish` guarantees at any rate -/

namespace Verif.CoinSelect.Ieee
open Verif Verif.CoinSelect.Machine

theorem unsigned_debug {bits n : Nat} {z : Int} (h : Build.debug.unsigned bits z = some n) : z = n ∧ z < 2 ^ bits := by
  unfold Build.unsigned at h
  split at h
  · next c =>
    have := Option.some.inj h
    exact ⟨by omega, c.2⟩
  · cases h

theorem sumU_debug_spec {bits : Nat} : ∀ (l : List Nat) (acc n : Nat), Build.debug.sumU bits acc l = some n → n = acc + l.sum
  | [], acc, n, h => by unfold Build.sumU at h; cases h; simp
  | x :: l, acc, n, h => by
    unfold Build.sumU at h
    obtain ⟨a, ha, h⟩ := Option.bind_eq_some_iff.1 h
    have h1 := (unsigned_debug ha).1
    have h2 := sumU_debug_spec l a n h
    rw [List.sum_cons]
    omega

theorem currentWeight_debug {s : Selector} (hin : s.selected ⊆ Finset.range s.candidates.length) {w : Nat}
    (h : Machine.currentWeight .debug s = some w) : w = s.currentWeight := by
  unfold Machine.currentWeight at h
  obtain ⟨count, hc, h⟩ := Option.bind_eq_some_iff.1 h
  obtain ⟨sw, hs, h⟩ := Option.bind_eq_some_iff.1 h
  have e1 := sumU_debug_spec _ _ _ hc
  unfold Machine.selectedWeight at hs
  have e2 := sumU_debug_spec _ _ _ hs
  have e3 := sumU_debug_spec _ _ _ h
  have f1 : ((indexes s).map fun i => (s.candidate i).inputCount).sum = ∑ i ∈ s.selected, (s.candidate i).inputCount :=
    sum_indexes hin _
  have f2 : ((indexes s).map fun i => (s.candidate i).weight).sum = s.selectedWeight := sum_indexes hin _
  rw [f1, Nat.zero_add] at e1
  rw [f2, Nat.zero_add] at e2
  have hh : (if (indexes s).any (fun i => (s.candidate i).isSegwit) then 2 else 0) =
      if ∃ i ∈ s.selected, (s.candidate i).isSegwit = true then 2 else 0 := by
    exact if_congr (by simp only [List.any_eq_true, mem_indexes hin]) rfl rfl
  rw [hh] at e3
  unfold Selector.currentWeight
  rw [e3, ← e1, ← e2]
  simp only [List.sum_cons, List.sum_nil]
  omega

theorem selectedAbs_debug {s : Selector} (hin : s.selected ⊆ Finset.range s.candidates.length) {v : Nat}
    (h : Machine.selectedAbs .debug s = some v) : v = s.selectedAbs := by
  unfold Machine.selectedAbs at h
  have e1 := sumU_debug_spec _ _ _ h
  have f : ((indexes s).map fun i => (s.candidate i).value).sum = s.selectedAbs := sum_indexes hin _
  rw [f] at e1
  omega

theorem maxByKey_none {α : Type} {key : α → Nat} {l : List α} (h : maxByKey key l = none) : l = [] := by
  cases l with
  | nil => rfl
  | cons x l => cases h

theorem maxByKey_mem {α : Type} {key : α → Nat} {l : List α} {x : α} (h : maxByKey key l = some x) : x ∈ l := by
  cases l with
  | nil => cases h
  | cons y l =>
    have : ∀ (l : List α) (y : α), l.foldl (fun best y => if key best ≤ key y then y else best) y ∈ y :: l := by
      intro l
      induction l with
      | nil => intro y; exact List.mem_cons_self
      | cons z l ih =>
        intro y
        rw [List.foldl_cons]
        split
        · exact List.mem_cons_of_mem _ (ih z)
        · rcases List.mem_cons.1 (ih y) with h | h
          · rw [h]; exact List.mem_cons_self
          · exact List.mem_cons_of_mem _ (List.mem_cons_of_mem _ h)
    unfold maxByKey at h
    rw [← Option.some.inj h]
    exact this l y

/-- a strategy is sound for the rates -/
structure Sound (r : Rates) (s : Selector) (x : Strat) : Prop where
  conserved : x.recipientValue.getD 0 + x.drainValue.getD 0 + x.fee = s.selectedAbs
  minFee : s.opts.minAbsoluteFee ≤ x.fee
  fee : r.feeU x.weight ≤ x.fee
  weight : x.weight = s.currentWeight + if x.drainValue.isSome then s.opts.drainWeight else 0
  recipient : ∀ v, s.opts.targetValue = some v → ∃ v', x.recipientValue = some v' ∧ v ≤ v'
  noRecipient : s.opts.targetValue = none → x.recipientValue = none
  drain : ∀ d, x.drainValue = some d → s.opts.minDrainValue ≤ d

variable {r : Rates} {s : Selector}

theorem noDrain_sound {w fee excess : Nat} {iw : Int} {l : List (Kind × Strat)}
    (h : noDrainStrategies .debug s (max fee s.opts.minAbsoluteFee) excess w iw = some l) (hf : fee = r.feeU w)
    (hw : w = s.currentWeight) (hx : s.selectedAbs = s.opts.target + max fee s.opts.minAbsoluteFee + excess) :
    ∀ k x, (k, x) ∈ l → Sound r s x := by
  intro k x hm
  unfold noDrainStrategies at h
  cases hv : s.opts.targetValue with
  | none => rw [hv] at h; cases h; cases hm
  | some v =>
    rw [hv] at h
    have ht : s.opts.target = v := by unfold CoinSelect.Opt.target; rw [hv]; rfl
    rw [ht] at hx
    simp only at h
    obtain ⟨fee1, h1, h⟩ := Option.bind_eq_some_iff.1 h
    obtain ⟨w1, -, h⟩ := Option.bind_eq_some_iff.1 h
    have e1 := (unsigned_debug h1).1
    have m1 := le_max_left fee s.opts.minAbsoluteFee
    have m2 := le_max_right fee s.opts.minAbsoluteFee
    have hfirst : Sound r s { recipientValue := some v, drainValue := none, fee := fee1, weight := w, waste := w1 } := by
      refine ⟨?_, ?_, ?_, ?_, fun v' hv' => ⟨v, rfl, ?_⟩, fun hn => ?_, fun d hd => ?_⟩
      · simp only [Option.getD_some, Option.getD_none]; omega
      · simp only; omega
      · simp only; omega
      · simp [hw]
      · rw [hv] at hv'; cases hv'; exact le_rfl
      · rw [hv] at hn; cases hn
      · cases hd
    split at h
    · obtain ⟨extraFee, h2, h⟩ := Option.bind_eq_some_iff.1 h
      obtain ⟨v2, h3, h⟩ := Option.bind_eq_some_iff.1 h
      obtain ⟨fee2, h4, h⟩ := Option.bind_eq_some_iff.1 h
      obtain ⟨w2, -, rfl⟩ := Option.map_eq_some_iff.1 h
      have e2 := (unsigned_debug h2).1
      have e3 := (unsigned_debug h3).1
      have e4 := (unsigned_debug h4).1
      rcases List.mem_cons.1 hm with hm | hm
      · cases hm; exact hfirst
      · cases List.mem_singleton.1 hm
        refine ⟨?_, ?_, ?_, ?_, fun v' hv' => ⟨v2, rfl, ?_⟩, fun hn => ?_, fun d hd => ?_⟩
        · simp only [Option.getD_some, Option.getD_none]; omega
        · simp only; omega
        · simp only; omega
        · simp [hw]
        · rw [hv] at hv'; cases hv'; omega
        · rw [hv] at hn; cases hn
        · cases hd
    · cases h
      cases List.mem_singleton.1 hm
      exact hfirst

theorem drain_sound {w fee imo : Nat} {iw : Int} {l : List (Kind × Strat)}
    (h : drainStrategies .debug r s (max fee s.opts.minAbsoluteFee) imo w iw = some l) (hf : fee = r.feeU w)
    (hw : w = s.currentWeight + s.opts.drainWeight) (hx : s.selectedAbs = s.opts.target + imo) :
    ∀ k x, (k, x) ∈ l → Sound r s x := by
  intro k x hm
  unfold drainStrategies at h
  split at h
  · obtain ⟨y, h1, h⟩ := Option.bind_eq_some_iff.1 h
    have e1 := (unsigned_debug h1).1
    split at h
    · obtain ⟨ws, -, rfl⟩ := Option.map_eq_some_iff.1 h
      cases List.mem_singleton.1 hm
      have m1 := le_max_left fee s.opts.minAbsoluteFee
      have m2 := le_max_right fee s.opts.minAbsoluteFee
      refine ⟨?_, m2, ?_, ?_, fun v' hv' => ⟨v', hv', le_rfl⟩, fun hn => hn, fun d hd => ?_⟩
      · have ht : s.opts.target = s.opts.targetValue.getD 0 := rfl
        simp only [Option.getD_some]
        omega
      · simp only; omega
      · simp [hw]
      · have := Option.some.inj hd
        omega
    · cases h; cases hm
  · cases h; cases hm

theorem finish_debug_ok (hin : s.selected ⊆ Finset.range s.candidates.length) {sel : Selection}
    (h : finishR .debug r s = some (.ok sel)) :
    sel.selected = s.selected ∧ sel.strategies ≠ [] ∧ s.selectedAbs < 2 ^ 64 ∧
    s.selectedAbs = s.opts.target + max (r.feeU s.currentWeight) s.opts.minAbsoluteFee + sel.excess ∧
    ∀ k x, (k, x) ∈ sel.strategies → Sound r s x := by
  unfold finishR at h
  obtain ⟨w, hw, h⟩ := Option.bind_eq_some_iff.1 h
  obtain ⟨wd, hwd, h⟩ := Option.bind_eq_some_iff.1 h
  obtain ⟨v, hv, h⟩ := Option.bind_eq_some_iff.1 h
  obtain ⟨cs, hcs, h⟩ := Option.bind_eq_some_iff.1 h
  have e1 := currentWeight_debug hin hw
  have e2 := (unsigned_debug hwd).1
  have e3 := selectedAbs_debug hin hv
  cases hm : maxByKey (fun x : Constraint × Nat => x.2) (cs.filter fun x => decide (0 < x.2)) with
  | some p => rw [hm] at h; cases h
  | none =>
    rw [hm] at h
    obtain ⟨imo, h1, h⟩ := Option.bind_eq_some_iff.1 h
    obtain ⟨excess, h2, h⟩ := Option.bind_eq_some_iff.1 h
    obtain ⟨iw, h3, h⟩ := Option.bind_eq_some_iff.1 h
    obtain ⟨l1, h4, h⟩ := Option.bind_eq_some_iff.1 h
    obtain ⟨l2, h5, h⟩ := Option.bind_eq_some_iff.1 h
    have d1 := (unsigned_debug h1).1
    have d2 := (unsigned_debug h2).1
    split at h
    · cases h
    · next hne =>
      cases h
      have hlt : s.selectedAbs < 2 ^ 64 := by
        unfold shortfalls at hcs
        obtain ⟨x, hx, hcs⟩ := Option.bind_eq_some_iff.1 hcs
        obtain ⟨y, hy, hcs⟩ := Option.bind_eq_some_iff.1 hcs
        have b1 := (unsigned_debug h1).2
        have b2 := (unsigned_debug h2).2
        have : v < 2 ^ 64 := by
          unfold Machine.selectedAbs at hv
          have : ∀ (l : List Nat) (acc n : Nat), acc < 2 ^ 64 → Build.debug.sumU 64 acc l = some n → n < 2 ^ 64 := by
            intro l
            induction l with
            | nil => intro acc n ha hh; unfold Build.sumU at hh; cases hh; exact ha
            | cons z l ih =>
              intro acc n ha hh
              unfold Build.sumU at hh
              obtain ⟨a, ha', hh⟩ := Option.bind_eq_some_iff.1 hh
              have := unsigned_debug ha'
              exact ih a n (by omega) hh
          exact this _ _ _ (by norm_num) hv
        omega
      subst e1
      subst e3
      have hwd' : wd = s.currentWeight + s.opts.drainWeight := by omega
      refine ⟨rfl, fun hn => hne ⟨rfl, hn⟩, hlt, by
        show s.selectedAbs = s.opts.target + max (r.feeU s.currentWeight) s.opts.minAbsoluteFee + excess
        omega, ?_⟩
      intro k x hx
      rcases List.mem_append.1 hx with hx | hx
      · exact noDrain_sound h4 rfl rfl (by omega) k x hx
      · exact drain_sound h5 rfl hwd' (by omega) k x hx

/-- what is missing -/
theorem finish_debug_error (hin : s.selected ⊆ Finset.range s.candidates.length) {e : SelErr}
    (h : finishR .debug r s = some (.error e)) :
    e.selected = s.selectedAbs ∧ 0 < e.missing ∧ match e.constraint with
      | .targetValue => s.opts.target = s.selectedAbs + e.missing
      | .targetFee => s.opts.target + r.feeU s.currentWeight = s.selectedAbs + e.missing
      | .minAbsoluteFee => s.opts.target + s.opts.minAbsoluteFee = s.selectedAbs + e.missing
      | .minDrainValue => s.opts.targetValue = none ∧
          r.feeU (s.currentWeight + s.opts.drainWeight) + s.opts.minDrainValue = s.selectedAbs + e.missing := by
  unfold finishR at h
  obtain ⟨w, hw, h⟩ := Option.bind_eq_some_iff.1 h
  obtain ⟨wd, hwd, h⟩ := Option.bind_eq_some_iff.1 h
  obtain ⟨v, hv, h⟩ := Option.bind_eq_some_iff.1 h
  obtain ⟨cs, hcs, h⟩ := Option.bind_eq_some_iff.1 h
  have e1 := currentWeight_debug hin hw
  have e2 := (unsigned_debug hwd).1
  have e3 := selectedAbs_debug hin hv
  subst e1
  subst e3
  have hwd' : wd = s.currentWeight + s.opts.drainWeight := by omega
  subst hwd'
  cases hm : maxByKey (fun x : Constraint × Nat => x.2) (cs.filter fun x => decide (0 < x.2)) with
  | none =>
    rw [hm] at h
    obtain ⟨imo, h1, h⟩ := Option.bind_eq_some_iff.1 h
    obtain ⟨excess, h2, h⟩ := Option.bind_eq_some_iff.1 h
    obtain ⟨iw, h3, h⟩ := Option.bind_eq_some_iff.1 h
    obtain ⟨l1, h4, h⟩ := Option.bind_eq_some_iff.1 h
    obtain ⟨l2, h5, h⟩ := Option.bind_eq_some_iff.1 h
    split at h
    · cases h
    · cases h
  | some p =>
    obtain ⟨c, missing⟩ := p
    rw [hm] at h
    cases h
    have hmem := List.mem_filter.1 (maxByKey_mem hm)
    have hpos : 0 < missing := of_decide_eq_true hmem.2
    refine ⟨rfl, hpos, ?_⟩
    have hmem := hmem.1
    unfold shortfalls at hcs
    obtain ⟨x, hx, hcs⟩ := Option.bind_eq_some_iff.1 hcs
    obtain ⟨y, hy, hcs⟩ := Option.bind_eq_some_iff.1 hcs
    obtain ⟨z, hz, rfl⟩ := Option.map_eq_some_iff.1 hcs
    have ex := (unsigned_debug hx).1
    have ey := (unsigned_debug hy).1
    simp only [List.mem_cons, Prod.mk.injEq, List.not_mem_nil, or_false] at hmem
    rcases hmem with ⟨rfl, h⟩ | ⟨rfl, h⟩ | ⟨rfl, h⟩ | ⟨rfl, h⟩
    · simp only; omega
    · simp only; omega
    · simp only; omega
    · cases ht : s.opts.targetValue with
      | some v =>
        rw [ht] at hz
        simp only [Option.isNone_some, Bool.false_eq_true, if_false, Option.some.injEq] at hz
        omega
      | none =>
        rw [ht] at hz
        simp only [Option.isNone_none, if_true] at hz
        obtain ⟨u, hu, rfl⟩ := Option.map_eq_some_iff.1 hz
        have eu := (unsigned_debug hu).1
        refine ⟨rfl, ?_⟩
        simp only
        omega

end Verif.CoinSelect.Ieee
