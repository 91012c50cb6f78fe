import Verif.Lemmas.MachineSelect2

/-! # Branch and bound on machine integers -/

namespace Verif.CoinSelect.Machine
open Verif Verif.CoinSelect Verif.CoinSelect.Spec Verif.Build Bnb

theorem unsigned_sub_fits {bits x y : Nat} (b : Build) (h : y ≤ x) (hx : x < 2 ^ bits) :
    b.unsigned bits ((x : Int) - y) = some (x - y) := by
  rw [unsigned_fits b (by omega) (by have : ((x : Nat) : Int) < 2 ^ bits := by exact_mod_cast hx
                                     omega)]
  congr 1; omega

section
variable {s : Selector} (b : Build) (hf : Fits s.opts s.candidates)
include hf

theorem useful_fits : ∀ (l : List (Nat × WV)), (∀ e ∈ l, e.2 = s.candidate e.1) →
    useful b s.opts.targetFeerate l = some (l.filter fun x => decide (0 < x.2.eff s.opts.targetFeerate))
  | [], _ => rfl
  | e :: l, h => by
    have hs := cand_small hf e.1
    rw [← h e (by simp)] at hs
    unfold useful
    rw [eff_fits b hf hs.1 hs.2, Option.bind_some, useful_fits l (fun x hx => h x (List.mem_cons_of_mem _ hx)), Option.map_some,
      List.filter_cons]
    by_cases h0 : 0 < e.2.eff s.opts.targetFeerate
    · rw [if_pos h0, if_pos (by simpa using h0)]
    · rw [if_neg h0, if_neg (by simpa using h0)]

theorem bounds_fits : bounds b s = some ⟨targetAbs s.opts, s.effectiveTarget, upperAbs s.opts, upperEff s⟩ := by
  have h1 := target_le hf
  have h2 := effectiveTarget_bound hf
  have h3 := abs_le.1 (drainWaste_bound hf)
  have hw := hf.weights
  obtain ⟨c1, c2⟩ := ceil_mulF s.opts.drainWeight hf.rate.1 hf.rate.2
  have c3 : ⌊mulF s.opts.drainWeight s.opts.targetFeerate⌋ ≤ ⌈mulF s.opts.drainWeight s.opts.targetFeerate⌉ := Int.floor_le_ceil _
  unfold bounds
  rw [unsigned_add_fits b (by omega), Option.bind_some, effectiveTarget_fits b hf, Option.bind_some, satU_eq (by omega),
    unsigned_add_fits b (by omega), Option.bind_some, drainWaste_fits hf, i64_fits b (by omega) (by omega), Option.map_some]
  rfl

end

/-! ### The pool -/

section
variable {s : Selector} {pool : List (Nat × WV)} (b : Build) (hf : Fits s.opts s.candidates) (hp : PoolGood s pool)
include hf hp

theorem pool_small {e : Nat × WV} (he : e ∈ pool) : e.2.weight ≤ 2 ^ 32 ∧ e.2.value ≤ 2 ^ 60 := by
  rw [hp.cand e he]; exact cand_small hf e.1

theorem pool_sum (f : WV → Nat) (pos : Nat) : ((pool.drop pos).map (fun e => f e.2)).sum ≤ (s.candidates.map f).sum := by
  have hnd : ((pool.drop pos).map (·.1)).Nodup := by
    rw [List.map_drop]; exact hp.nodup.sublist (List.drop_sublist _ _)
  have h1 : (pool.drop pos).map (fun e => f e.2) = ((pool.drop pos).map (·.1)).map (fun i => f (s.candidates.getD i default)) := by
    rw [List.map_map]
    apply List.map_congr_left
    intro e he
    rw [hp.cand e (List.mem_of_mem_drop he)]; rfl
  rw [h1, ← List.sum_toFinset _ hnd]
  apply sum_le_all
  intro i hi
  rw [List.mem_toFinset, List.mem_map] at hi
  obtain ⟨e, he, rfl⟩ := hi
  exact Finset.mem_range.2 (hp.range e (List.mem_of_mem_drop he))

theorem remAbs_le (pos : Nat) : ((pool.drop pos).map (·.2.value)).sum ≤ 2 ^ 60 := by
  have := pool_sum hf hp (·.value) pos
  have := hf.amounts
  omega

theorem pool_size (pos : Nat) : size ((pool.drop pos).map (·.2)) ≤ 2 ^ 60 + 2 ^ 55 := by
  have h1 := total_le hf
  have h2 := pool_sum hf hp (fun c => c.value + 2 ^ 23 * c.weight) pos
  unfold size
  rw [List.map_map]
  exact le_trans h2 h1

theorem remEff_bound (pos : Nat) : |((pool.drop pos).map (·.2.eff s.opts.targetFeerate)).sum| ≤ 2 ^ 60 + 2 ^ 55 := by
  have h1 := sum_eff_bound hf ((pool.drop pos).map (·.2))
  have h2 := pool_size hf hp pos
  rw [List.map_map] at h1
  have e : ((pool.drop pos).map (·.2.eff s.opts.targetFeerate)) =
    ((pool.drop pos).map ((fun c : WV => c.eff s.opts.targetFeerate) ∘ (·.2))) := rfl
  rw [e]
  omega

theorem bnbNew_fits (best : Int) : bnbNew b s pool best = some (node pool s 0 s.selected best) := by
  have h1 := remAbs_le hf hp 0
  have h2 := pool_size hf hp 0
  rw [List.drop_zero] at h1 h2
  unfold bnbNew
  rw [sumU_fits b _ 0 (by omega), Nat.zero_add, Option.bind_some, sumEff_fits b hf _ 0 (by rw [abs_zero]; omega), Option.map_some,
    zero_add, List.map_map]
  · rfl
  · intro c hc
    obtain ⟨e, he, rfl⟩ := List.mem_map.1 hc
    exact pool_small hf hp he

/-! ### Moves -/

theorem backtrack_fits (pos : Nat) (X : Finset Nat) (best : Int) : ∀ k, k ≤ pool.length →
    backtrackFrom b { node pool s k X best with poolPos := pos } k =
      Bnb.backtrackFrom { node pool s k X best with poolPos := pos } k := by
  intro k
  induction k with
  | zero => intro _; rfl
  | succ k ih =>
    intro hk
    have hlt : k < pool.length := hk
    have hget : pool[k]? = some pool[k] := List.getElem?_eq_getElem hlt
    have hdrop : pool.drop k = pool[k] :: pool.drop (k + 1) := List.drop_eq_getElem_cons hlt
    have hsm := pool_small hf hp (List.getElem_mem hlt)
    have a1 := remAbs_le hf hp k
    have a2 := abs_le.1 (remEff_bound hf hp k)
    by_cases hm : (pool[k]).1 ∈ X
    · simp only [backtrackFrom, Bnb.backtrackFrom, node, hget, Selector.isSelected, hm, decide_true, if_true, Selector.deselect]
    · have e1 : (((pool.drop (k + 1)).map (·.2.value)).sum) + pool[k].2.value = ((pool.drop k).map (·.2.value)).sum := by
        rw [hdrop, List.map_cons, List.sum_cons, Nat.add_comm]
      have e2 : ((pool.drop (k + 1)).map (·.2.eff s.opts.targetFeerate)).sum + pool[k].2.eff s.opts.targetFeerate =
          ((pool.drop k).map (·.2.eff s.opts.targetFeerate)).sum := by
        rw [hdrop, List.map_cons, List.sum_cons, Int.add_comm]
      simp only [backtrackFrom, Bnb.backtrackFrom, node, hget, Selector.isSelected, hm, decide_false, Bool.false_eq_true, if_false]
      rw [unsigned_add_fits b (by omega), Option.bind_some, eff_fits b hf hsm.1 hsm.2, Option.bind_some,
        i64_fits b (by omega) (by omega), Option.bind_some]
      rw [e1, e2]
      exact ih (by omega)

theorem forward_fits (pos : Nat) (X : Finset Nat) (best : Int) (skip : Bool) :
    forward b (node pool s pos X best) skip = (node pool s pos X best).forward skip := by
  unfold forward Bnb.forward
  by_cases h : pos < pool.length
  · have hget : pool[pos]? = some pool[pos] := List.getElem?_eq_getElem h
    have hdrop : pool.drop pos = pool[pos] :: pool.drop (pos + 1) := List.drop_eq_getElem_cons h
    have hsm := pool_small hf hp (List.getElem_mem h)
    have a1 := remAbs_le hf hp pos
    have a2 := abs_le.1 (remEff_bound hf hp (pos + 1))
    have e1 : ((pool.drop pos).map (·.2.value)).sum = pool[pos].2.value + ((pool.drop (pos + 1)).map (·.2.value)).sum := by
      rw [hdrop, List.map_cons, List.sum_cons]
    have e2 : ((pool.drop pos).map (·.2.eff s.opts.targetFeerate)).sum = pool[pos].2.eff s.opts.targetFeerate +
        ((pool.drop (pos + 1)).map (·.2.eff s.opts.targetFeerate)).sum := by
      rw [hdrop, List.map_cons, List.sum_cons]
    simp only [node, hget]
    rw [unsigned_sub_fits b (by omega) (by omega), Option.bind_some, eff_fits b hf hsm.1 hsm.2, Option.bind_some,
      i64_fits b (by omega) (by omega), Option.bind_some,
      show subU ((pool.drop pos).map (·.2.value)).sum pool[pos].2.value =
        some (((pool.drop pos).map (·.2.value)).sum - pool[pos].2.value) from if_pos (by omega), Option.bind_some]
  · have hget : pool[pos]? = none := List.getElem?_eq_none (by omega)
    simp only [node, hget]

theorem move_fits {pos : Nat} (hpos : pos ≤ pool.length) (X : Finset Nat) (best : Int) (br : Branch) :
    move b (node pool s pos X best) br = BnbIter.move (node pool s pos X best) br := by
  cases br with
  | «continue» => simp only [move, BnbIter.move, forward_fits b hf hp]
  | skipInclusion => simp only [move, BnbIter.move, forward_fits b hf hp]
  | skipBoth =>
    have := backtrack_fits b hf hp pos X best pos hpos
    have hn : ({ node pool s pos X best with poolPos := pos } : Bnb Int) = node pool s pos X best := rfl
    rw [hn] at this
    show Option.map _ (backtrackFrom b (node pool s pos X best) pos) = Option.map _ ((node pool s pos X best).backtrackFrom pos)
    rw [this]

end

/-! ### The search -/

/-- a best score on machine integers and the exact one: `i64::MAX` stands for the top element -/
def Rel (x : Int) (y : WithTop Int) : Prop := (x = 2 ^ 63 - 1 ∧ y = ⊤) ∨ (x < 2 ^ 63 - 1 ∧ y = (x : WithTop Int))

theorem rel_lt {x z : Int} {y : WithTop Int} (h : Rel x y) (hz : z < 2 ^ 62) : y < (z : WithTop Int) ↔ x < z := by
  rcases h with ⟨rfl, rfl⟩ | ⟨-, rfl⟩
  · simp only [not_top_lt, false_iff]; omega
  · exact WithTop.coe_lt_coe

theorem rel_le {x z : Int} {y : WithTop Int} (h : Rel x y) (hz : z < 2 ^ 62) : (z : WithTop Int) ≤ y ↔ z ≤ x := by
  rcases h with ⟨rfl, rfl⟩ | ⟨-, rfl⟩
  · simp only [le_top, true_iff]; omega
  · exact WithTop.coe_le_coe

/-- the bounds of the search -/
def exactBounds (s : Selector) : Bounds := ⟨targetAbs s.opts, s.effectiveTarget, upperAbs s.opts, upperEff s⟩

theorem bailout_same (pool : List (Nat × WV)) (s : Selector) (p : Nat) (X : Finset Nat) (x : Int) (y : WithTop Int) :
    bailout (node pool s p X x) = CoinSelect.bailout (node pool s p X y) := rfl

theorem tooLittle_fits (b : Build) (t : Bounds) {abs rem : Nat} {e re : Int} (h1 : abs ≤ 2 ^ 61) (h2 : rem ≤ 2 ^ 61)
    (h3 : |e| ≤ 2 ^ 61) (h4 : |re| ≤ 2 ^ 61) :
    ∃ l, tooLittle b t abs rem e re = some l ∧ (l = true ↔ abs + rem < t.targetAbs ∨ e + re < t.targetEff) := by
  have h5 := abs_le.1 h3
  have h6 := abs_le.1 h4
  unfold tooLittle
  rw [unsigned_add_fits b (by omega), Option.bind_some]
  by_cases hl : abs + rem < t.targetAbs
  · rw [if_pos hl]; exact ⟨true, rfl, fun _ => .inl hl, fun _ => rfl⟩
  · rw [if_neg hl, i64_fits b (by omega) (by omega), Option.map_some]
    refine ⟨_, rfl, ?_⟩
    rw [decide_eq_true_iff]
    constructor
    · exact .inr
    · rintro (h | h)
      · exact absurd h hl
      · exact h

section
variable {s : Selector} {pool : List (Nat × WV)} (b : Build) (hf : Fits s.opts s.candidates) (hp : PoolGood s pool)
include hf hp

theorem strategy_fits (p : Nat) {X : Finset Nat} (hX : X ⊆ Finset.range s.candidates.length) {x : Int} {y : WithTop Int} (h : Rel x y) :
    (strategy b s.opts (exactBounds s) (node pool s p X x) = none ∧ bnbStrategy s (node pool s p X y) = none) ∨
    ∃ br sc, strategy b s.opts (exactBounds s) (node pool s p X x) = some (br, sc) ∧
      bnbStrategy s (node pool s p X y) = some (br, sc.map fun v : Int => (v : WithTop Int)) ∧ ∀ v, sc = some v → v < 2 ^ 62 := by
  have hf' : Fits ({ s with selected := X } : Selector).opts ({ s with selected := X } : Selector).candidates := hf
  have hin : ({ s with selected := X } : Selector).InRange := hX
  have v1 := selectedAbs_le hf' hin
  have v2 := hf.amounts
  have v3 := selectedEff_bound hf' hin
  have v4 := remAbs_le hf hp p
  have v5 := remEff_bound hf hp p
  have v6 := abs_le.1 (selectedWaste_bound hf' hin)
  have v7 := effectiveTarget_bound hf'
  have v8 := abs_le.1 v3
  obtain ⟨little, hl1, hl2⟩ := tooLittle_fits b (exactBounds s) (abs := ({ s with selected := X } : Selector).selectedAbs)
    (rem := ((pool.drop p).map (·.2.value)).sum) (e := ({ s with selected := X } : Selector).selectedEff)
    (re := ((pool.drop p).map (·.2.eff s.opts.targetFeerate)).sum) (by simp only at v1; omega) (by omega) (by omega) (by omega)
  have hlt := rel_lt h (z := ({ s with selected := X } : Selector).selectedWaste) (by omega)
  generalize hM : strategy b s.opts (exactBounds s) (node pool s p X x) = R
  unfold strategy at hM
  simp only [node] at hM
  rw [selectedAbs_fits b hf' hin, Option.bind_some, selectedEff_fits b hf' hin, Option.bind_some,
    hl1, Option.bind_some, selectedWaste_fits b hf' hin, Option.bind_some] at hM
  simp only [exactBounds] at hl2 hM
  by_cases c1 : ({ s with selected := X } : Selector).selectedAbs + ((pool.drop p).map (·.2.value)).sum < targetAbs s.opts ∨
      ({ s with selected := X } : Selector).selectedEff + ((pool.drop p).map (·.2.eff s.opts.targetFeerate)).sum < s.effectiveTarget
  · exact .inr ⟨_, none, hM.symm.trans (if_pos (hl2.2 c1)), if_pos c1, (fun v hv => by cases hv)⟩
  have hM1 := hM.symm.trans (if_neg (fun q => c1 (hl2.1 q)))
  by_cases c2 : upperAbs s.opts < ({ s with selected := X } : Selector).selectedAbs ∧
      upperEff s < ({ s with selected := X } : Selector).selectedEff
  · exact .inr ⟨_, none, hM1.trans (if_pos c2), (if_neg c1).trans (if_pos c2), (fun v hv => by cases hv)⟩
  have hM2 := hM1.trans (if_neg c2)
  by_cases c3 : s.opts.longTerm < s.opts.targetFeerate ∧ x < ({ s with selected := X } : Selector).selectedWaste
  · exact .inr ⟨_, none, hM2.trans (if_pos c3), (if_neg c1).trans ((if_neg c2).trans (if_pos ⟨c3.1, hlt.2 c3.2⟩)), (fun v hv => by cases hv)⟩
  have hM3 := hM2.trans (if_neg c3)
  have c3' : ¬ (s.opts.longTerm < s.opts.targetFeerate ∧ y < (({ s with selected := X } : Selector).selectedWaste : WithTop Int)) :=
    fun q => c3 ⟨q.1, hlt.1 q.2⟩
  by_cases c4 : targetAbs s.opts ≤ ({ s with selected := X } : Selector).selectedAbs ∧
      s.effectiveTarget ≤ ({ s with selected := X } : Selector).selectedEff
  · have hM4 := hM3.trans (if_pos c4)
    rw [currentExcess_fits b hf' hin, Option.bind_some] at hM4
    have e : ({ s with selected := X } : Selector).currentExcess =
      ({ s with selected := X } : Selector).selectedEff - ({ s with selected := X } : Selector).effectiveTarget := rfl
    rw [i64_fits b (by omega) (by omega), Option.map_some] at hM4
    refine .inr ⟨_, some _, hM4, (if_neg c1).trans ((if_neg c2).trans ((if_neg c3').trans (if_pos c4))), ?_⟩
    intro v hv
    cases hv
    omega
  have hM4 := hM3.trans (if_neg c4)
  have hE : bnbStrategy s (node pool s p X y) = (CoinSelect.bailout (node pool s p X y)).map
      fun skip => if skip then (.skipInclusion, none) else (.continue, none) :=
    (if_neg c1).trans ((if_neg c2).trans ((if_neg c3').trans (if_neg c4)))
  have hM' : R = (CoinSelect.bailout (node pool s p X y)).map
      fun skip => if skip then (.skipInclusion, none) else (.continue, none) := hM4
  rw [hM', hE]
  cases CoinSelect.bailout _ with
  | none => exact .inl ⟨rfl, rfl⟩
  | some skip =>
    cases skip with
    | true => exact .inr ⟨.skipInclusion, none, rfl, rfl, (fun v hv => by cases hv)⟩
    | false => exact .inr ⟨.continue, none, rfl, rfl, (fun v hv => by cases hv)⟩

omit hf hp in
theorem back_spec {X X' : Finset Nat} {p : Nat} : ∀ {k : Nat}, back pool X k = some (p, X') → p < k ∧ p < pool.length ∧ X' ⊆ X
  | 0, h => by cases h
  | k + 1, h => by
    unfold back at h
    cases hk : pool[k]? with
    | none => rw [hk] at h; cases h
    | some e =>
      rw [hk] at h
      simp only at h
      by_cases hm : e.1 ∈ X
      · rw [if_pos hm] at h
        cases h
        exact ⟨Nat.lt_succ_self _, (List.getElem?_eq_some_iff.1 hk).1, Finset.erase_subset _ _⟩
      · rw [if_neg hm] at h
        obtain ⟨h1, h2, h3⟩ := back_spec h
        exact ⟨by omega, h2, h3⟩

omit hf hp in
theorem advertise_rel (p : Nat) (X : Finset Nat) {x : Int} {y : WithTop Int} (h : Rel x y) {sc : Option Int}
    (hsc : ∀ v, sc = some v → v < 2 ^ 62) : ∃ x' y' f, Rel x' y' ∧
      BnbIter.advertise (node pool s p X x) sc = (node pool s p X x', f) ∧
      BnbIter.advertise (node pool s p X y) (sc.map fun v : Int => (v : WithTop Int)) = (node pool s p X y', f) := by
  cases sc with
  | none => exact ⟨x, y, none, h, rfl, rfl⟩
  | some v =>
    have hv := hsc v rfl
    have hle := rel_le h hv
    by_cases hc : v ≤ x
    · refine ⟨v, v, some { s with selected := X }, .inr ⟨by omega, rfl⟩, ?_, ?_⟩
      · have : v ≤ (node pool s p X x).best := hc
        simp only [BnbIter.advertise, Bnb.advertise, this, if_true]; rfl
      · have : (v : WithTop Int) ≤ (node pool s p X y).best := hle.2 hc
        simp only [Option.map_some, BnbIter.advertise, Bnb.advertise, this, if_true]; rfl
    · refine ⟨x, y, none, h, ?_, ?_⟩
      · have : ¬ v ≤ (node pool s p X x).best := hc
        simp only [BnbIter.advertise, Bnb.advertise, this, if_false, Bool.false_eq_true]
      · have : ¬ (v : WithTop Int) ≤ (node pool s p X y).best := fun q => hc (hle.1 q)
        simp only [Option.map_some, BnbIter.advertise, Bnb.advertise, this, if_false, Bool.false_eq_true]

omit hf hp in
theorem take_done' (st : Decide Int) (n : Nat) (z : Bnb Int) : take b st n ⟨z, true⟩ = some [] := by
  cases n <;> rfl

theorem take_fits : ∀ (n p : Nat) (X : Finset Nat) (x : Int) (y : WithTop Int), p ≤ pool.length →
    X ⊆ Finset.range s.candidates.length → Rel x y →
    take b (strategy b s.opts (exactBounds s)) n ⟨node pool s p X x, false⟩ =
      BnbIter.take (bnbStrategy s) n ⟨node pool s p X y, false⟩
  | 0, _, _, _, _, _, _, _ => rfl
  | n + 1, p, X, x, y, hpos, hX, h => by
    unfold take BnbIter.take
    unfold next BnbIter.next
    simp only [Bool.false_eq_true, if_false]
    rcases strategy_fits b hf hp p hX h with ⟨h1, h2⟩ | ⟨br, sc, h1, h2, h3⟩
    · rw [h1, h2]; rfl
    · rw [h1, h2]
      obtain ⟨x', y', f, hrel, ha, hb⟩ := advertise_rel (pool := pool) (s := s) p X h h3
      simp only [Option.bind_some, ha, hb]
      rw [move_fits b hf hp hpos]
      have hlen : ((node pool s p X x').poolPos < (node pool s p X x').pool.length) = (p < pool.length) := rfl
      have hlen' : ((node pool s p X y').poolPos < (node pool s p X y').pool.length) = (p < pool.length) := rfl
      simp only [hlen, hlen']
      by_cases hend : (br.willContinue && !decide (p < pool.length)) = true
      · rw [if_pos hend]
        rw [Bool.and_eq_true, Bool.not_eq_true', decide_eq_false_iff_not] at hend
        have hget : pool[p]? = none := List.getElem?_eq_none (by omega)
        have hfw : ∀ sk, (node pool s p X x').forward sk = none := by
          intro sk
          unfold Bnb.forward
          simp only [node, hget]
        have hmv : BnbIter.move (node pool s p X x') br = none := by
          cases br with
          | «continue» => simp only [BnbIter.move, hfw]; rfl
          | skipInclusion => simp only [BnbIter.move, hfw]; rfl
          | skipBoth => exact absurd hend.1 (by simp [Branch.willContinue])
        rw [hmv]
        split <;> rfl
      · rw [if_neg hend, if_neg (fun q => hend q.2)]
        rw [Bool.and_eq_true, Bool.not_eq_true', decide_eq_false_iff_not, not_and, not_not] at hend
        cases br with
        | «continue» =>
          have hlt := hend rfl
          have hr := hp.range _ (List.getElem_mem hlt)
          rw [forward_false hlt hr, forward_false hlt hr]
          simp only [Option.map_some, Option.bind_some, Bool.not_false, Bool.or_true, if_true]
          rw [take_fits n (p + 1) _ x' y' hlt (by
            intro j hj
            rcases Finset.mem_insert.1 hj with rfl | hj
            · exact Finset.mem_range.2 hr
            · exact hX hj) hrel]
        | skipInclusion =>
          have hlt := hend rfl
          rw [forward_true hlt, forward_true hlt]
          simp only [Option.map_some, Option.bind_some, Bool.not_false, Bool.or_true, if_true]
          rw [take_fits n (p + 1) _ x' y' hlt hX hrel]
        | skipBoth =>
          obtain ⟨z1, hz1⟩ := move_skipBoth pool s p X x' hpos
          obtain ⟨z2, hz2⟩ := move_skipBoth pool s p X y' hpos
          rw [hz1, hz2]
          cases hbk : back pool X p with
          | none =>
            simp only [Option.map_some, Option.bind_some, Bool.not_true, Bool.or_false]
            cases f with
            | none => rfl
            | some g => simp only [Option.isSome_some, if_true]; rw [take_done', take_done]
          | some q =>
            obtain ⟨p', X'⟩ := q
            obtain ⟨q1, q2, q3⟩ := back_spec hbk
            simp only [Option.map_some, Option.bind_some, Bool.not_false, Bool.or_true, if_true]
            rw [take_fits n (p' + 1) X' x' y' (by omega) (q3.trans hX) hrel]

end

theorem bnb_fits {s : Selector} (b : Build) (hf : Fits s.opts s.candidates) (hin : s.InRange)
    {sort : List (Nat × WV) → List (Nat × WV)} (hs : ValidSort s.opts.targetFeerate sort) (rounds : Nat) :
    coinSelectBnb b sort rounds s = CoinSelect.coinSelectBnb sort rounds s := by
  have hp := poolGood_of_sort hs
  have hu : useful b s.opts.targetFeerate s.unselected = some (usefulUnselected s) := by
    rw [useful_fits b hf]
    · rfl
    · intro e he
      unfold Selector.unselected at he
      obtain ⟨i, -, rfl⟩ := List.mem_map.1 he
      rfl
  have v1 := selectedAbs_le hf hin
  have v2 := hf.amounts
  have v3 := selectedEff_bound hf hin
  have v4 := remAbs_le hf hp 0
  have v5 := remEff_bound hf hp 0
  unfold coinSelectBnb CoinSelect.coinSelectBnb
  rw [hu, Option.bind_some]
  simp only []
  rw [bounds_fits b hf, Option.bind_some, selectedAbs_fits b hf hin, Option.bind_some, selectedEff_fits b hf hin, Option.bind_some,
    bnbNew_fits b hf hp, Option.bind_some]
  have e1 : (node (sort (usefulUnselected s)) s 0 s.selected (2 ^ 63 - 1 : Int)).remAbs =
      (Bnb.new s (sort (usefulUnselected s)) (⊤ : WithTop Int)).remAbs := rfl
  have e2 : (node (sort (usefulUnselected s)) s 0 s.selected (2 ^ 63 - 1 : Int)).remEff =
      (Bnb.new s (sort (usefulUnselected s)) (⊤ : WithTop Int)).remEff := rfl
  have e3 : Bnb.new s (sort (usefulUnselected s)) (⊤ : WithTop Int) = node (sort (usefulUnselected s)) s 0 s.selected ⊤ := rfl
  obtain ⟨little, hl1, hl2⟩ := tooLittle_fits b (exactBounds s) (abs := s.selectedAbs) (e := s.selectedEff)
    (show (s.selectedAbs : Nat) ≤ 2 ^ 61 by omega)
    (show (node (sort (usefulUnselected s)) s 0 s.selected (2 ^ 63 - 1 : Int)).remAbs ≤ 2 ^ 61 from le_trans v4 (by norm_num))
    (show |s.selectedEff| ≤ 2 ^ 61 by omega)
    (show |(node (sort (usefulUnselected s)) s 0 s.selected (2 ^ 63 - 1 : Int)).remEff| ≤ 2 ^ 61 from le_trans v5 (by norm_num))
  unfold exactBounds at hl1 hl2
  rw [hl1, Option.bind_some]
  refine if_congr hl2 rfl ?_
  rw [e3]
  have := take_fits b hf hp rounds 0 s.selected (2 ^ 63 - 1) ⊤ (Nat.zero_le _) hin (.inl ⟨rfl, rfl⟩)
  unfold exactBounds at this
  rw [this]

end Verif.CoinSelect.Machine
