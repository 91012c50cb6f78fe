import Verif.Lemmas.Ieee
import Verif.Model.IeeeSelect

/-! # The coin selector on all `f32` rates against the one on rational rates -/

namespace Verif.CoinSelect.Ieee
open Verif Verif.CoinSelect.Machine

/-- the rates of Model/MachineSelect -/
def exactRates (o : CoinSelect.Opt) : Rates where
  feeU w := Machine.feeU w o.targetFeerate
  feeI w := Machine.feeI w o.targetFeerate
  drainFee := satU ⌊mulF o.drainWeight o.targetFeerate⌋
  drainWaste := Machine.drainWaste o
  waste w := satI (truncI (mulF w (f32 (o.targetFeerate - o.longTerm))))
  decreasing := decide (o.longTerm < o.targetFeerate)

variable (b : Build)

theorem bindCongr {α β : Type} (x : Option α) {f g : α → Option β} (h : ∀ a, f a = g a) : x.bind f = x.bind g := by
  rw [funext h]

theorem eff_exact (o : CoinSelect.Opt) (c : WV) : eff b (exactRates o) c = Machine.eff b c o.targetFeerate := by
  unfold eff Machine.eff exactRates
  rfl

theorem sumEff_exact (o : CoinSelect.Opt) (l : List WV) : ∀ acc,
    sumEff b (exactRates o) acc l = Machine.sumEff b o.targetFeerate acc l := by
  induction l with
  | nil => intro acc; rfl
  | cons c l ih =>
    intro acc
    unfold sumEff Machine.sumEff
    rw [eff_exact]
    simp only [ih]

theorem selectedEff_exact (s : Selector) : selectedEff b (exactRates s.opts) s = Machine.selectedEff b s :=
  sumEff_exact b s.opts _ 0

theorem selectedWaste_exact (s : Selector) : selectedWaste b (exactRates s.opts) s = Machine.selectedWaste b s := by
  unfold selectedWaste Machine.selectedWaste exactRates
  rfl

theorem drainStrategies_exact (s : Selector) (fee imo weight : Nat) (w : Int) :
    drainStrategies b (exactRates s.opts) s fee imo weight w = Machine.drainStrategies b s fee imo weight w := by
  unfold drainStrategies Machine.drainStrategies exactRates
  rfl

theorem effectiveTarget_exact (s : Selector) : effectiveTarget b (exactRates s.opts) s = Machine.effectiveTarget b s := by
  unfold effectiveTarget Machine.effectiveTarget exactRates
  rfl

theorem finish_exact (s : Selector) : finishR b (exactRates s.opts) s = Machine.finish b s := by
  have hf : ∀ w, (exactRates s.opts).feeU w = Machine.feeU w s.opts.targetFeerate := fun w => rfl
  unfold finishR Machine.finish
  simp only [hf, selectedWaste_exact, drainStrategies_exact]
  refine bindCongr _ fun w => bindCongr _ fun wd => bindCongr _ fun sel => bindCongr _ fun cs => ?_
  cases maxByKey (fun x : Constraint × Nat => x.2) (cs.filter fun x => decide (0 < x.2)) with
  | none => rfl
  | some p => rfl

theorem select_opts {s s' : Selector} {i : Nat} {x : Bool} (h : s.select i = some (x, s')) : s'.opts = s.opts := by
  unfold Selector.select at h
  split at h
  · cases h; rfl
  · cases h

theorem untilLoop_exact (l : List Nat) : ∀ (s : Selector) (res : Except SelErr Selection) (o : CoinSelect.Opt), s.opts = o →
    untilLoop b (exactRates o) s res l = Machine.untilLoop b s res l := by
  induction l with
  | nil => intro s res o _; rfl
  | cons i l ih =>
    intro s res o ho
    unfold untilLoop Machine.untilLoop
    cases hs : s.select i with
    | none => simp only [Option.bind_none]
    | some p =>
      obtain ⟨x, s'⟩ := p
      have ho' : s'.opts = o := (select_opts hs).trans ho
      subst ho'
      simp only [Option.bind_some]
      rw [finish_exact]
      refine bindCongr _ fun r' => ?_
      cases r' with
      | ok x => rfl
      | error e => exact ih s' _ _ rfl

theorem until_exact (s : Selector) : untilR b (exactRates s.opts) s = Machine.selectUntilFinished b s := by
  unfold untilR Machine.selectUntilFinished
  rw [finish_exact]
  refine bindCongr _ fun r' => ?_
  cases r' with
  | ok x => rfl
  | error e => exact untilLoop_exact b _ s _ _ rfl

/-! ### branch and bound -/

theorem backtrackFrom_exact (o : CoinSelect.Opt) (n : Nat) : ∀ (x : Bnb Int), x.selection.opts = o →
    backtrackFrom b (exactRates o) x n = Machine.backtrackFrom b x n ∧
    ∀ r, backtrackFrom b (exactRates o) x n = some r → r.2.selection.opts = o := by
  induction n with
  | zero => intro x ho; exact ⟨rfl, fun r h => by cases h; exact ho⟩
  | succ n ih =>
    intro x ho
    unfold backtrackFrom Machine.backtrackFrom
    cases hp : x.pool[n]? with
    | none => exact ⟨by simp only [Option.bind_none], fun r h => by simp only [Option.bind_none, reduceCtorEq] at h⟩
    | some p =>
      obtain ⟨index, c⟩ := p
      simp only
      by_cases hsel : x.selection.isSelected index = true
      · rw [if_pos hsel, if_pos hsel]
        exact ⟨rfl, fun r h => by cases h; exact ho⟩
      · rw [if_neg hsel, if_neg hsel]
        cases h1 : b.unsigned 64 ((x.remAbs : Int) + c.value) with
        | none => exact ⟨by simp only [Option.bind_none], fun r h => by simp only [Option.bind_none, reduceCtorEq] at h⟩
        | some remAbs =>
          simp only [Option.bind_some]
          rw [ho]
          rw [eff_exact]
          cases h2 : Machine.eff b c o.targetFeerate with
          | none => exact ⟨by simp only [Option.bind_none], fun r h => by simp only [Option.bind_none, reduceCtorEq] at h⟩
          | some e =>
            simp only [Option.bind_some]
            cases h3 : b.i64 (x.remEff + e) with
            | none => exact ⟨by simp only [Option.bind_none], fun r h => by simp only [Option.bind_none, reduceCtorEq] at h⟩
            | some remEff => exact ih { x with remAbs, remEff } ho

theorem forward_exact (o : CoinSelect.Opt) (x : Bnb Int) (ho : x.selection.opts = o) (skip : Bool) :
    forward b (exactRates o) x skip = Machine.forward b x skip ∧
    ∀ r, forward b (exactRates o) x skip = some r → r.selection.opts = o := by
  unfold forward Machine.forward
  cases hp : x.pool[x.poolPos]? with
  | none => exact ⟨by simp only [Option.bind_none], fun r h => by simp only [Option.bind_none, reduceCtorEq] at h⟩
  | some p =>
    obtain ⟨index, c⟩ := p
    simp only
    cases h1 : b.unsigned 64 ((x.remAbs : Int) - c.value) with
    | none => exact ⟨by simp only [Option.bind_none], fun r h => by simp only [Option.bind_none, reduceCtorEq] at h⟩
    | some remAbs =>
      simp only [Option.bind_some]
      rw [ho]
      rw [eff_exact]
      cases h2 : Machine.eff b c o.targetFeerate with
      | none => exact ⟨by simp only [Option.bind_none], fun r h => by simp only [Option.bind_none, reduceCtorEq] at h⟩
      | some e =>
        simp only [Option.bind_some]
        cases h3 : b.i64 (x.remEff - e) with
        | none => exact ⟨by simp only [Option.bind_none], fun r h => by simp only [Option.bind_none, reduceCtorEq] at h⟩
        | some remEff =>
          simp only [Option.bind_some]
          refine ⟨trivial, fun r h => ?_⟩
          cases skip with
          | true => cases h; exact ho
          | false =>
            simp only [Bool.false_eq_true, if_false] at h
            obtain ⟨q, hq, rfl⟩ := Option.map_eq_some_iff.1 h
            exact (select_opts hq).trans ho

theorem move_exact (o : CoinSelect.Opt) (x : Bnb Int) (ho : x.selection.opts = o) (br : Branch) :
    move b (exactRates o) x br = Machine.move b x br ∧
    ∀ r, move b (exactRates o) x br = some r → r.2.selection.opts = o := by
  cases br with
  | «continue» =>
    obtain ⟨h1, h2⟩ := forward_exact b o x ho false
    unfold move Machine.move
    simp only [← h1, true_and]
    intro r h
    obtain ⟨q, hq, rfl⟩ := Option.map_eq_some_iff.1 h
    exact h2 q hq
  | skipInclusion =>
    obtain ⟨h1, h2⟩ := forward_exact b o x ho true
    unfold move Machine.move
    simp only [← h1, true_and]
    intro r h
    obtain ⟨q, hq, rfl⟩ := Option.map_eq_some_iff.1 h
    exact h2 q hq
  | skipBoth =>
    obtain ⟨h1, h2⟩ := backtrackFrom_exact b o x.poolPos x ho
    unfold move Machine.move
    simp only [← h1, true_and]
    intro r h
    obtain ⟨q, hq, rfl⟩ := Option.map_eq_some_iff.1 h
    exact h2 q hq

theorem strategy_exact (o : CoinSelect.Opt) (t : Bounds) (x : Bnb Int) (ho : x.selection.opts = o) :
    strategy b (exactRates o) t x = Machine.strategy b o t x := by
  have he : selectedEff b (exactRates o) x.selection = Machine.selectedEff b x.selection := by
    rw [← ho]; exact selectedEff_exact b _
  have hw : selectedWaste b (exactRates o) x.selection = Machine.selectedWaste b x.selection := by
    rw [← ho]; exact selectedWaste_exact b _
  have hx : currentExcess b (exactRates o) x.selection = Machine.currentExcess b x.selection := by
    unfold currentExcess Machine.currentExcess
    rw [he, ← ho, effectiveTarget_exact]
  unfold strategy Machine.strategy
  rw [he, hw, hx]
  simp only [exactRates, decide_eq_true_eq]

theorem advertise_opts (x : Bnb Int) (sc : Option Int) : (BnbIter.advertise x sc).1.selection = x.selection := by
  unfold BnbIter.advertise
  cases sc with
  | none => rfl
  | some v => simp only [Bnb.advertise]; split <;> (split <;> rfl)

theorem next_exact (o : CoinSelect.Opt) (t : Bounds) (it : BnbIter Int) (ho : it.state.selection.opts = o) :
    next b (exactRates o) (strategy b (exactRates o) t) it = Machine.next b (Machine.strategy b o t) it ∧
    ∀ r, next b (exactRates o) (strategy b (exactRates o) t) it = some r → r.2.state.selection.opts = o := by
  unfold next Machine.next
  by_cases hd : it.done = true
  · rw [if_pos hd, if_pos hd]
    exact ⟨rfl, fun r h => by cases h; exact ho⟩
  · rw [if_neg hd, if_neg hd, strategy_exact b o t it.state ho]
    cases hs : Machine.strategy b o t it.state with
    | none => exact ⟨by simp only [Option.bind_none], fun r h => by simp only [Option.bind_none, reduceCtorEq] at h⟩
    | some d =>
      simp only [Option.bind_some]
      have ho' : (BnbIter.advertise it.state d.2).1.selection.opts = o := by rw [advertise_opts]; exact ho
      obtain ⟨h1, h2⟩ := move_exact b o (BnbIter.advertise it.state d.2).1 ho' d.1
      split
      · exact ⟨rfl, fun r h => by cases h⟩
      · rw [← h1]
        refine ⟨rfl, fun r h => ?_⟩
        obtain ⟨q, hq, rfl⟩ := Option.map_eq_some_iff.1 h
        exact h2 q hq

theorem take_exact (o : CoinSelect.Opt) (t : Bounds) (n : Nat) : ∀ (it : BnbIter Int), it.state.selection.opts = o →
    take b (exactRates o) (strategy b (exactRates o) t) n it = Machine.take b (Machine.strategy b o t) n it := by
  induction n with
  | zero => intro it _; rfl
  | succ n ih =>
    intro it ho
    obtain ⟨h1, h2⟩ := next_exact b o t it ho
    unfold take Machine.take
    rw [← h1]
    cases hn : next b (exactRates o) (strategy b (exactRates o) t) it with
    | none => rfl
    | some r =>
      simp only [Option.bind_some]
      cases r.1 with
      | none => rfl
      | some x => simp only; rw [ih r.2 (h2 r hn)]

theorem useful_exact (o : CoinSelect.Opt) (l : List (Nat × WV)) :
    useful b (exactRates o) l = Machine.useful b o.targetFeerate l := by
  induction l with
  | nil => rfl
  | cons x l ih =>
    unfold useful Machine.useful
    rw [ih, eff_exact]

theorem bounds_exact (s : Selector) : bounds b (exactRates s.opts) s = Machine.bounds b s := by
  have h1 : (exactRates s.opts).drainFee = satU ⌊mulF s.opts.drainWeight s.opts.targetFeerate⌋ := rfl
  have h2 : (exactRates s.opts).drainWaste = Machine.drainWaste s.opts := rfl
  unfold bounds Machine.bounds
  simp only [effectiveTarget_exact, h1, h2]

theorem bnbNew_selection {s : Selector} {pool : List (Nat × WV)} {best : Int} {x : Bnb Int}
    (hn : Machine.bnbNew b s pool best = some x) : x.selection = s := by
  unfold Machine.bnbNew at hn
  obtain ⟨a, -, h⟩ := Option.bind_eq_some_iff.1 hn
  obtain ⟨c, -, rfl⟩ := Option.map_eq_some_iff.1 h
  rfl

theorem bnbNew_exact (s : Selector) (pool : List (Nat × WV)) (best : Int) :
    bnbNew b (exactRates s.opts) s pool best = Machine.bnbNew b s pool best := by
  unfold bnbNew Machine.bnbNew
  rw [sumEff_exact]

theorem bindCongr' {α β : Type} (x : Option α) {f g : α → Option β} (h : ∀ a, x = some a → f a = g a) :
    x.bind f = x.bind g := by
  cases x with
  | none => rfl
  | some a => exact h a rfl

theorem bnb_tail (s : Selector) (t : Bounds) (abs : Nat) (e : Int) (rounds : Nat) (x : Bnb Int) (hx : x.selection = s) :
    ((tooLittle b t abs x.remAbs e x.remEff).bind fun little =>
      if little then some none
      else (take b (exactRates s.opts) (strategy b (exactRates s.opts) t) rounds { state := x, done := false }).map lastSome) =
    ((tooLittle b t abs x.remAbs e x.remEff).bind fun little =>
      if little then some none
      else (Machine.take b (Machine.strategy b s.opts t) rounds { state := x, done := false }).map lastSome) := by
  rw [take_exact b s.opts t rounds _ (by show x.selection.opts = _; rw [hx])]

theorem bnb_exact (sort : List (Nat × WV) → List (Nat × WV)) (rounds : Nat) (s : Selector) :
    bnbR b (exactRates s.opts) sort rounds s = Machine.coinSelectBnb b sort rounds s := by
  unfold bnbR Machine.coinSelectBnb
  rw [useful_exact, selectedEff_exact, bounds_exact]
  refine bindCongr _ fun pool0 => bindCongr _ fun t => bindCongr _ fun abs => bindCongr _ fun e => ?_
  rw [bnbNew_exact]
  exact bindCongr' _ fun x hx => bnb_tail b s t abs e rounds x (bnbNew_selection b hx)

end Verif.CoinSelect.Ieee
