import Verif.Model.MachineSelect
import Verif.Spec.MachineSelect
import Verif.Lemmas.Machine
import Verif.Lemmas.Fee
import Verif.Props.Bnb

/-! # The coin selector on machine integers: nothing overflows within the bounds of Spec/MachineSelect -/

namespace Verif.CoinSelect.Machine
open Verif Verif.CoinSelect Verif.CoinSelect.Spec Verif.Build

/-! ### Sizes of products -/

theorem f32_abs_le (x : ℚ) : |f32 x| ≤ 2 * |x| + 1 := by
  by_cases h : (2 : ℚ) ^ (-126 : Int) ≤ |x|
  · have h1 := f32_rel h
    have h2 : |f32 x| ≤ |x - f32 x| + |x| := by
      have := abs_sub_abs_le_abs_sub (f32 x) x
      rw [abs_sub_comm] at this
      linarith
    have h3 := abs_nonneg x
    linarith [div_le_self h3 (show (1 : ℚ) ≤ 2 ^ 24 by norm_num)]
  · have h1 : f32 ((2 : ℚ) ^ (-126 : Int)) = (2 : ℚ) ^ (-126 : Int) := f32_of_isF32 (isF32_pow (by norm_num))
    have h2 : x ≤ (2 : ℚ) ^ (-126 : Int) := le_trans (le_abs_self x) (le_of_lt (not_le.1 h))
    have h3 : -x ≤ (2 : ℚ) ^ (-126 : Int) := le_trans (neg_le_abs x) (le_of_lt (not_le.1 h))
    have h4 := f32_mono h2
    have h5 := f32_mono h3
    rw [h1] at h4 h5
    rw [f32_neg] at h5
    have h6 : (2 : ℚ) ^ (-126 : Int) ≤ 1 := by norm_num
    have h7 := abs_nonneg x
    rw [abs_le]
    constructor <;> linarith

theorem f32_nat_le (n : Nat) : f32 (n : ℚ) ≤ 2 * n := by
  rcases Nat.eq_zero_or_pos n with rfl | h
  · rw [Nat.cast_zero, f32_zero]; simp
  · have h1 : (1 : ℚ) ≤ n := by exact_mod_cast h
    have h2 : (2 : ℚ) ^ (-126 : Int) ≤ |(n : ℚ)| := by
      rw [abs_of_nonneg (by linarith)]
      exact le_trans (by norm_num) h1
    have h3 := f32_rel h2
    rw [abs_of_nonneg (show (0 : ℚ) ≤ n by linarith)] at h3
    have h4 := (abs_le.1 h3).1
    linarith [div_le_self (show (0 : ℚ) ≤ n by linarith) (show (1 : ℚ) ≤ 2 ^ 24 by norm_num)]

/-- a product is at most four times the exact one, plus one -/
theorem mulF_abs_le (w : Nat) (r : ℚ) (hr : |r| ≤ 2 ^ 20) : |mulF w r| ≤ 2 ^ 22 * w + 1 := by
  have h1 := f32_abs_le (f32 (w : ℚ) * r)
  have h2 := f32_nat_le w
  have h0 : 0 ≤ f32 (w : ℚ) := f32_nonneg (by positivity)
  rw [abs_mul, abs_of_nonneg h0] at h1
  have h3 : f32 (w : ℚ) * |r| ≤ 2 * w * 2 ^ 20 := mul_le_mul h2 hr (abs_nonneg r) (by positivity)
  unfold mulF
  linarith

theorem mulF_nonneg (w : Nat) {r : ℚ} (hr : 0 ≤ r) : 0 ≤ mulF w r := product_nonneg w hr

theorem ceil_mulF (w : Nat) {r : ℚ} (h0 : 0 ≤ r) (h1 : r ≤ 2 ^ 20) : 0 ≤ ⌈mulF w r⌉ ∧ ⌈mulF w r⌉ ≤ 2 ^ 23 * (w : Int) := by
  refine ⟨Int.ceil_nonneg (mulF_nonneg w h0), ?_⟩
  rcases Nat.eq_zero_or_pos w with rfl | hw
  · have : mulF 0 r = 0 := product_zero r
    rw [this]; simp
  · rw [Int.ceil_le]
    have h2 := le_trans (le_abs_self _) (mulF_abs_le w r (by rw [abs_of_nonneg h0]; exact h1))
    have h3 : (1 : ℚ) ≤ w := by exact_mod_cast hw
    push_cast
    linarith

theorem truncI_abs_le {x : ℚ} {n : Int} (h : |x| ≤ n) : |truncI x| ≤ n := by
  have hx := abs_le.1 h
  unfold truncI
  rw [abs_le]
  by_cases h0 : 0 ≤ x
  · rw [if_pos h0]
    have h1 : 0 ≤ ⌊x⌋ := Int.floor_nonneg.2 h0
    have h2 : ⌊x⌋ ≤ n := by
      have := le_trans (Int.floor_le x) hx.2
      exact_mod_cast this
    constructor <;> omega
  · rw [if_neg h0]
    have h1 : -n ≤ ⌈x⌉ := by
      have := le_trans hx.1 (Int.le_ceil x)
      exact_mod_cast this
    have h2 : ⌈x⌉ ≤ 0 := Int.ceil_le.2 (by push_cast; linarith)
    constructor <;> omega

/-! ### Saturation -/

theorem satI_eq {z : Int} (h0 : -2 ^ 63 ≤ z) (h1 : z < 2 ^ 63) : satI z = z := by
  unfold satI; omega

theorem satU_eq {z : Int} (h1 : z < 2 ^ 64) : satU z = z.toNat := by
  unfold satU; omega

theorem feeI_eq {w : Nat} {r : ℚ} (hw : w ≤ 2 ^ 32) (h0 : 0 ≤ r) (h1 : r ≤ 2 ^ 20) : feeI w r = CoinSelect.feeI w r := by
  obtain ⟨a, c⟩ := ceil_mulF w h0 h1
  exact satI_eq (by omega) (by omega)

theorem feeU_eq' {w : Nat} {r : ℚ} (hw : w ≤ 2 ^ 32) (h0 : 0 ≤ r) (h1 : r ≤ 2 ^ 20) : feeU w r = CoinSelect.feeU w r := by
  obtain ⟨a, c⟩ := ceil_mulF w h0 h1
  exact satU_eq (by omega)

theorem feeI_bound {w : Nat} {r : ℚ} (hw : w ≤ 2 ^ 32) (h0 : 0 ≤ r) (h1 : r ≤ 2 ^ 20) :
    0 ≤ CoinSelect.feeI w r ∧ CoinSelect.feeI w r ≤ 2 ^ 55 := by
  obtain ⟨a, c⟩ := ceil_mulF w h0 h1
  unfold CoinSelect.feeI
  omega

theorem feeU_bound {w : Nat} {r : ℚ} (hw : w ≤ 2 ^ 32) (h0 : 0 ≤ r) (h1 : r ≤ 2 ^ 20) : CoinSelect.feeU w r ≤ 2 ^ 55 := by
  obtain ⟨a, c⟩ := ceil_mulF w h0 h1
  unfold CoinSelect.feeU
  omega

theorem later_eq (o : Opt) : o.longTerm = laterRate o := longTerm_eq o

theorem drainWaste_bound {o : Opt} {cs : List WV} (h : Fits o cs) : |o.drainWaste| ≤ 2 ^ 57 := by
  unfold Opt.drainWaste
  apply truncI_abs_le
  have hw := h.weights
  have w1 : (o.drainWeight : ℚ) + o.spendDrainWeight ≤ 2 ^ 32 := by exact_mod_cast (show o.drainWeight + o.spendDrainWeight ≤ 2 ^ 32 by omega)
  have h1 := mulF_abs_le o.drainWeight o.targetFeerate (by rw [abs_of_nonneg h.rate.1]; exact h.rate.2)
  have h2 := mulF_abs_le o.spendDrainWeight o.longTerm (by rw [later_eq, abs_of_nonneg h.later.1]; exact h.later.2)
  have h3 := f32_abs_le (mulF o.drainWeight o.targetFeerate + mulF o.spendDrainWeight o.longTerm)
  have h4 := abs_add_le (mulF o.drainWeight o.targetFeerate) (mulF o.spendDrainWeight o.longTerm)
  push_cast
  linarith

theorem drainWaste_fits {o : Opt} {cs : List WV} (h : Fits o cs) : drainWaste o = o.drainWaste := by
  have hb := abs_le.1 (drainWaste_bound h)
  unfold Opt.drainWaste at hb
  exact satI_eq (by omega) (by omega)

theorem waste_bound {o : Opt} {cs : List WV} (h : Fits o cs) {w : Nat} (hw : w ≤ 2 ^ 32) :
    |truncI (mulF w (f32 (o.targetFeerate - o.longTerm)))| ≤ 2 ^ 55 := by
  apply truncI_abs_le
  have hp : f32 ((2 : ℚ) ^ 20) = 2 ^ 20 := by
    have := f32_natCast (n := 2 ^ 20) (by norm_num)
    push_cast at this
    exact this
  have hd : |f32 (o.targetFeerate - o.longTerm)| ≤ 2 ^ 20 := by
    rw [later_eq]
    have a := f32_mono (show o.targetFeerate - laterRate o ≤ 2 ^ 20 by linarith [h.rate.2, h.later.1])
    have c := f32_mono (show -(o.targetFeerate - laterRate o) ≤ 2 ^ 20 by linarith [h.rate.1, h.later.2])
    rw [hp] at a c
    rw [f32_neg] at c
    rw [abs_le]; constructor <;> linarith
  have h1 := mulF_abs_le w _ hd
  have w1 : (w : ℚ) ≤ 2 ^ 32 := by exact_mod_cast hw
  push_cast
  linarith

/-! ### Sums over selections -/

theorem sum_le_all (cs : List WV) (f : WV → Nat) {X : Finset Nat} (h : X ⊆ Finset.range cs.length) :
    ∑ i ∈ X, f (cs.getD i default) ≤ (cs.map f).sum := by
  rw [← sum_getD_range]
  exact Finset.sum_le_sum_of_subset h

theorem indexes_nodup (s : Selector) : (indexes s).Nodup := List.nodup_range.filter _

theorem mem_indexes {s : Selector} (h : s.InRange) {i : Nat} : i ∈ indexes s ↔ i ∈ s.selected := by
  unfold indexes
  rw [List.mem_filter, List.mem_range, decide_eq_true_iff]
  exact ⟨fun x => x.2, fun x => ⟨Finset.mem_range.1 (h x), x⟩⟩

theorem indexes_toFinset {s : Selector} (h : s.InRange) : (indexes s).toFinset = s.selected := by
  ext i; rw [List.mem_toFinset, mem_indexes h]

theorem sum_indexes {M : Type} [AddCommMonoid M] {s : Selector} (h : s.InRange) (f : Nat → M) :
    ((indexes s).map f).sum = ∑ i ∈ s.selected, f i := by
  rw [← List.sum_toFinset f (indexes_nodup s), indexes_toFinset h]

/-! ### The quantities of a selector -/

section
variable {s : Selector} (b : Build) (hf : Fits s.opts s.candidates) (hin : s.InRange)
include hf hin

theorem selectedWeight_le : s.selectedWeight ≤ (s.candidates.map (·.weight)).sum := sum_le_all s.candidates (·.weight) hin
theorem selectedAbs_le : s.selectedAbs ≤ (s.candidates.map (·.value)).sum := sum_le_all s.candidates (·.value) hin

theorem selectedWeight_fits : selectedWeight b s = some s.selectedWeight := by
  have h1 := selectedWeight_le hf hin
  have h2 := hf.weights
  unfold selectedWeight
  have e : ((indexes s).map fun i => (s.candidate i).weight).sum = s.selectedWeight := sum_indexes hin _
  rw [sumU_fits b _ 0 (by rw [e]; omega), e, Nat.zero_add]

theorem selectedAbs_fits : selectedAbs b s = some s.selectedAbs := by
  have h1 := selectedAbs_le hf hin
  have h2 := hf.amounts
  unfold selectedAbs
  have e : ((indexes s).map fun i => (s.candidate i).value).sum = s.selectedAbs := sum_indexes hin _
  rw [sumU_fits b _ 0 (by rw [e]; omega), e, Nat.zero_add]

theorem selectedWaste_bound : |s.selectedWaste| ≤ 2 ^ 55 := by
  have h1 := selectedWeight_le hf hin
  have h2 := hf.weights
  exact waste_bound hf (by omega)

theorem selectedWaste_fits : selectedWaste b s = some s.selectedWaste := by
  have h := abs_le.1 (selectedWaste_bound hf hin)
  unfold selectedWaste
  rw [selectedWeight_fits b hf hin, Option.map_some]
  congr 1
  unfold Selector.selectedWaste at h ⊢
  exact satI_eq (by omega) (by omega)

omit hf hin in
theorem varintSize_bounds (n : Nat) : 1 ≤ varintSize n ∧ varintSize n ≤ 9 := by
  unfold varintSize; split_ifs <;> omega

theorem currentWeight_bound : s.currentWeight ≤ s.opts.baseWeight + (s.candidates.map (·.weight)).sum + 34 := by
  have h1 := selectedWeight_le hf hin
  have h2 := varintSize_bounds (∑ i ∈ s.selected, (s.candidate i).inputCount)
  unfold Selector.currentWeight
  split_ifs <;> omega

theorem currentWeight_fits : currentWeight b s = some s.currentWeight := by
  have h1 := currentWeight_bound hf hin
  have h2 := hf.weights
  have h3 := hf.counts
  have h4 : ∑ i ∈ s.selected, (s.candidate i).inputCount ≤ (s.candidates.map (·.inputCount)).sum :=
    sum_le_all s.candidates (·.inputCount) hin
  have e : ((indexes s).map fun i => (s.candidate i).inputCount).sum = ∑ i ∈ s.selected, (s.candidate i).inputCount :=
    sum_indexes hin _
  have e2 : (if (indexes s).any (fun i => (s.candidate i).isSegwit) then 2 else 0) =
      (if ∃ i ∈ s.selected, (s.candidate i).isSegwit = true then 2 else 0) := by
    refine if_congr ?_ rfl rfl
    rw [List.any_eq_true]
    constructor
    · rintro ⟨i, hi, h⟩; exact ⟨i, (mem_indexes hin).1 hi, h⟩
    · rintro ⟨i, hi, h⟩; exact ⟨i, (mem_indexes hin).2 hi, h⟩
  unfold currentWeight
  simp only []
  rw [sumU_fits b _ 0 (by rw [e]; omega), e, Nat.zero_add, Option.bind_some, selectedWeight_fits b hf hin, Option.bind_some, e2]
  have e3 : s.opts.baseWeight + [s.selectedWeight, (if ∃ i ∈ s.selected, (s.candidate i).isSegwit = true then 2 else 0),
      (varintSize (∑ i ∈ s.selected, (s.candidate i).inputCount) - 1) * 4].sum = s.currentWeight := by
    unfold Selector.currentWeight
    simp only [List.sum_cons, List.sum_nil]
    omega
  rw [sumU_fits b _ _ (by rw [e3]; omega), e3]

/-! #### Effective values -/

omit hin in
theorem eff_bound (c : WV) : |c.eff s.opts.targetFeerate| ≤ c.value + 2 ^ 23 * c.weight := by
  obtain ⟨h1, h2⟩ := ceil_mulF c.weight hf.rate.1 hf.rate.2
  unfold WV.eff CoinSelect.feeI
  rw [abs_le]; omega

omit hin in
theorem eff_fits {c : WV} (hw : c.weight ≤ 2 ^ 32) (hv : c.value ≤ 2 ^ 60) :
    eff b c s.opts.targetFeerate = some (c.eff s.opts.targetFeerate) := by
  have h1 := feeI_bound hw hf.rate.1 hf.rate.2
  unfold eff
  rw [feeI_eq hw hf.rate.1 hf.rate.2, asI64_small (by omega)]
  exact i64_fits b (by omega) (by omega)

/-- the size of a list of coins -/
def size (l : List WV) : Nat := (l.map fun c => c.value + 2 ^ 23 * c.weight).sum

omit hf hin in
theorem size_cons (c : WV) (l : List WV) : size (c :: l) = c.value + 2 ^ 23 * c.weight + size l := by
  unfold size; rw [List.map_cons, List.sum_cons]

omit hin in
theorem sum_eff_bound (l : List WV) : |(l.map (·.eff s.opts.targetFeerate)).sum| ≤ size l := by
  induction l with
  | nil => simp [size]
  | cons c l ih =>
    rw [List.map_cons, List.sum_cons, size_cons]
    have h1 := eff_bound hf c
    have h2 := abs_add_le (c.eff s.opts.targetFeerate) (l.map (·.eff s.opts.targetFeerate)).sum
    push_cast
    linarith

omit hin in
theorem sumEff_fits : ∀ (l : List WV) (acc : Int), |acc| + size l < 2 ^ 62 → (∀ c ∈ l, c.weight ≤ 2 ^ 32 ∧ c.value ≤ 2 ^ 60) →
    sumEff b s.opts.targetFeerate acc l = some (acc + (l.map (·.eff s.opts.targetFeerate)).sum)
  | [], acc, _, _ => by simp [sumEff]
  | c :: l, acc, h, hl => by
    obtain ⟨hw, hv⟩ := hl c (by simp)
    rw [size_cons] at h
    have h1 := eff_bound hf c
    have h2 := abs_add_le acc (c.eff s.opts.targetFeerate)
    have h3 := abs_le.1 (le_refl |acc + c.eff s.opts.targetFeerate|)
    push_cast at h
    unfold sumEff
    rw [eff_fits b hf hw hv, Option.bind_some, i64_fits b (by omega) (by omega), Option.bind_some,
      sumEff_fits l _ (by omega) (fun c' hc' => hl c' (List.mem_cons_of_mem _ hc')), List.map_cons, List.sum_cons, add_assoc]

/-- all candidates together -/
def total (cs : List WV) : Nat := (cs.map fun c => c.value + 2 ^ 23 * c.weight).sum

omit hf hin in
theorem total_eq (cs : List WV) : total cs = (cs.map (·.value)).sum + 2 ^ 23 * (cs.map (·.weight)).sum := by
  induction cs with
  | nil => rfl
  | cons c cs ih =>
    unfold total at ih ⊢
    rw [List.map_cons, List.sum_cons, ih, List.map_cons, List.map_cons, List.sum_cons, List.sum_cons]
    omega

omit hin in
theorem total_le : total s.candidates ≤ 2 ^ 60 + 2 ^ 55 := by
  have h1 := hf.amounts
  have h2 := hf.weights
  rw [total_eq]; omega

omit hin in
theorem cand_small (i : Nat) : (s.candidate i).weight ≤ 2 ^ 32 ∧ (s.candidate i).value ≤ 2 ^ 60 := by
  have h1 := hf.amounts
  have h2 := hf.weights
  by_cases hi : i < s.candidates.length
  · have a := sum_le_all s.candidates (·.weight) (X := {i}) (by simpa using hi)
    have c := sum_le_all s.candidates (·.value) (X := {i}) (by simpa using hi)
    rw [Finset.sum_singleton] at a c
    unfold Selector.candidate
    omega
  · unfold Selector.candidate
    rw [List.getD_eq_getElem?_getD, List.getElem?_eq_none (by omega)]
    exact ⟨Nat.zero_le _, Nat.zero_le _⟩

theorem size_indexes : size ((indexes s).map s.candidate) ≤ 2 ^ 60 + 2 ^ 55 := by
  have h1 := total_le hf
  unfold size
  rw [List.map_map]
  have e := sum_indexes hin ((fun c : WV => c.value + 2 ^ 23 * c.weight) ∘ s.candidate)
  rw [e]
  exact le_trans (sum_le_all s.candidates (fun c : WV => c.value + 2 ^ 23 * c.weight) hin) h1

theorem sum_eff_eq : (((indexes s).map s.candidate).map (·.eff s.opts.targetFeerate)).sum = s.selectedEff := by
  rw [List.map_map]
  exact sum_indexes hin _

theorem selectedEff_bound : |s.selectedEff| ≤ 2 ^ 60 + 2 ^ 55 := by
  have h1 := sum_eff_bound hf ((indexes s).map s.candidate)
  have h2 := size_indexes hf hin
  rw [sum_eff_eq hf hin] at h1
  omega

theorem selectedEff_fits : selectedEff b s = some s.selectedEff := by
  have h2 := size_indexes hf hin
  unfold selectedEff
  rw [sumEff_fits b hf _ 0 (by rw [abs_zero]; omega), sum_eff_eq hf hin, zero_add]
  intro c hc
  obtain ⟨i, -, rfl⟩ := List.mem_map.1 hc
  exact cand_small hf i

omit hin in
theorem target_weight : s.opts.baseWeight + (if s.candidates.any (·.isSegwit) then 2 else 0) +
    (varintSize (s.candidates.map (·.inputCount)).sum - 1) * 4 ≤ 2 ^ 32 := by
  have h1 := hf.weights
  have h2 := varintSize_bounds (s.candidates.map (·.inputCount)).sum
  split_ifs <;> omega

omit hin in
theorem effectiveTarget_bound : 0 ≤ s.effectiveTarget ∧ s.effectiveTarget ≤ 2 ^ 60 + 2 ^ 55 := by
  have h1 := hf.amounts
  have h2 := feeI_bound (target_weight hf) hf.rate.1 hf.rate.2
  have h3 : s.opts.target = s.opts.targetValue.getD 0 := rfl
  unfold Selector.effectiveTarget
  simp only []
  omega

omit hin in
theorem effectiveTarget_fits : effectiveTarget b s = some s.effectiveTarget := by
  have h1 := hf.amounts
  have h2 := hf.weights
  have h3 := varintSize_bounds (s.candidates.map (·.inputCount)).sum
  have h4 := effectiveTarget_bound hf
  have h5 : s.opts.target = s.opts.targetValue.getD 0 := rfl
  unfold effectiveTarget
  have e3 : s.opts.baseWeight + [(if s.candidates.any (·.isSegwit) then 2 else 0),
      (varintSize (s.candidates.map (·.inputCount)).sum - 1) * 4].sum = s.opts.baseWeight +
      (if s.candidates.any (·.isSegwit) then 2 else 0) + (varintSize (s.candidates.map (·.inputCount)).sum - 1) * 4 := by
    simp only [List.sum_cons, List.sum_nil]; omega
  rw [sumU_fits b _ 0 (by have := hf.counts; omega), Nat.zero_add, Option.bind_some,
    sumU_fits b _ _ (by rw [e3]; split_ifs <;> omega), e3, Option.bind_some,
    feeI_eq (target_weight hf) hf.rate.1 hf.rate.2, asI64_small (by omega)]
  unfold Selector.effectiveTarget at h4 ⊢
  simp only [] at h4 ⊢
  exact i64_fits b (by omega) (by omega)

theorem currentExcess_fits : currentExcess b s = some s.currentExcess := by
  have h1 := abs_le.1 (selectedEff_bound hf hin)
  have h2 := effectiveTarget_bound hf
  unfold currentExcess
  rw [selectedEff_fits b hf hin, Option.bind_some, effectiveTarget_fits b hf, Option.bind_some, i64_fits b (by omega) (by omega)]
  rfl

end

end Verif.CoinSelect.Machine
