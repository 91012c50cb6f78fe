import Verif.Model.CoinSelect
import Mathlib.Order.WithBot
import Mathlib.Data.Int.Order.Basic

/-!
# Model of branch and bound (bdk_coin_select/src/bnb.rs)

`none` is a panic (failed assertion, index out of range, unsigned underflow).  The simplifications of
Model/CoinSelect apply.
-/

namespace Verif.CoinSelect

/-- bnb.rs:4-11 `BranchStrategy` -/
inductive Branch where
  | continue | skipInclusion | skipBoth
deriving DecidableEq, Repr

/-- bnb.rs:14-19 `will_continue` -/
def Branch.willContinue : Branch → Bool
  | .continue => true
  | .skipInclusion => true
  | .skipBoth => false

/-- bnb.rs:27-35 `Bnb` -/
structure Bnb (S : Type) where
  pool : List (Nat × WV)
  poolPos : Nat
  best : S
  selection : Selector
  remAbs : Nat
  remEff : Int

namespace Bnb
variable {S : Type} [LinearOrder S]

/-- bnb.rs:39-55 `new` -/
def new (selector : Selector) (pool : List (Nat × WV)) (max : S) : Bnb S :=
  { pool, poolPos := 0, best := max, selection := selector,
    remAbs := (pool.map (·.2.value)).sum,
    remEff := (pool.map (·.2.eff selector.opts.targetFeerate)).sum }

/-- bnb.rs:71-90 `backtrack`: `scan pos` visits the positions `pos - 1, …, 0` -/
def backtrackFrom (b : Bnb S) : Nat → Option (Bool × Bnb S)
  | 0 => some (false, b)
  | pos + 1 =>
    match b.pool[pos]? with
    | none => none
    | some (index, c) =>
      if b.selection.isSelected index then
        some (true, { b with poolPos := pos, selection := (b.selection.deselect index).2 })
      else
        backtrackFrom
          { b with remAbs := b.remAbs + c.value, remEff := b.remEff + c.eff b.selection.opts.targetFeerate } pos

/-- bnb.rs:71-90 `backtrack` -/
def backtrack (b : Bnb S) : Option (Bool × Bnb S) := b.backtrackFrom b.poolPos

/-- bnb.rs:93-101 `forward` -/
def forward (b : Bnb S) (skip : Bool) : Option (Bnb S) :=
  match b.pool[b.poolPos]? with
  | none => none
  | some (index, c) =>
    (subU b.remAbs c.value).bind fun remAbs =>
    let b' := { b with remAbs, remEff := b.remEff - c.eff b.selection.opts.targetFeerate }
    if skip then some b'
    else (b'.selection.select index).map fun r => { b' with selection := r.2 }

/-- bnb.rs:105-111 `advertise_new_score` -/
def advertise (b : Bnb S) (score : S) : Bool × Bnb S :=
  if score ≤ b.best then (true, { b with best := score }) else (false, b)

end Bnb

/-- bnb.rs:24 `DecideStrategy`; the closure may panic (`none`) -/
abbrev Decide (S : Type) := Bnb S → Option (Branch × Option S)

/-- bnb.rs:114-121 `BnbIter` -/
structure BnbIter (S : Type) where
  state : Bnb S
  done : Bool

namespace BnbIter
variable {S : Type} [LinearOrder S]

/-- bnb.rs:134-140: advertise the score, if any; the second component is `found_best` -/
def advertise (b : Bnb S) : Option S → Bnb S × Option Selector
  | none => (b, none)
  | some sc => if (b.advertise sc).1 then ((b.advertise sc).2, some b.selection) else ((b.advertise sc).2, none)

/-- bnb.rs:148-160 and 163: take the branch and increment the position; the first component is `done` -/
def move (b : Bnb S) : Branch → Option (Bool × Bnb S)
  | .continue => (b.forward false).map fun b' => (false, { b' with poolPos := b'.poolPos + 1 })
  | .skipInclusion => (b.forward true).map fun b' => (false, { b' with poolPos := b'.poolPos + 1 })
  | .skipBoth => b.backtrack.map fun r => (!r.1, { r.2 with poolPos := r.2.poolPos + 1 })

/-- bnb.rs:126-170 `next`.  Outer `none`: panic.  The inner option is the item: `none` ends the iteration. -/
def next (strategy : Decide S) (it : BnbIter S) : Option (Option (Option Selector) × BnbIter S) :=
  if it.done then some (none, it)
  else
    (strategy it.state).bind fun d =>
    let a := advertise it.state d.2
    -- the `debug_assert!` on line 142
    if d.1.willContinue && !decide (a.1.poolPos < a.1.pool.length) then none
    else
      (move a.1 d.1).map fun r =>
        (if a.2.isSome || !r.1 then some a.2 else none, { state := r.2, done := r.1 })

/-- `iter.take(rounds)` collected: at most `rounds` items, ending with the iterator -/
def take (strategy : Decide S) : Nat → BnbIter S → Option (List (Option Selector))
  | 0, _ => some []
  | n + 1, it =>
    (next strategy it).bind fun r =>
    match r.1 with
    | none => some []
    | some x => (take strategy n r.2).map fun xs => x :: xs

end BnbIter

/-- bnb.rs:304 `.reduce(|b, c| if c.is_some() { c } else { b })` followed by `?` (line 313) -/
def lastSome {α : Type} : List (Option α) → Option α
  | [] => none
  | x :: xs => xs.foldl (fun b c => if c.isSome then c else b) x

/-- bnb.rs:216-221: the candidates worth adding -/
def usefulUnselected (s : Selector) : List (Nat × WV) :=
  s.unselected.filter fun x => decide (0 < x.2.eff s.opts.targetFeerate)

/-- What `sort_unstable_by` (bnb.rs:222-226) guarantees: a permutation in descending order of effective value;
candidates of equal effective value come in any order. -/
def ValidSort (rate : ℚ) (sort : List (Nat × WV) → List (Nat × WV)) : Prop :=
  ∀ l, (sort l).Perm l ∧ (sort l).Pairwise fun a b => b.2.eff rate ≤ a.2.eff rate

/-- bnb.rs:232 `target_abs` -/
def targetAbs (o : Opt) : Nat := o.target + o.minAbsoluteFee
/-- bnb.rs:235 `upper_bound_abs` -/
def upperAbs (o : Opt) : Nat := targetAbs o + truncU (mulF o.drainWeight o.targetFeerate)
/-- bnb.rs:236 `upper_bound_eff` -/
def upperEff (s : Selector) : Int := s.effectiveTarget + s.opts.drainWaste

/-- bnb.rs:265-278: the early bailout test; `none` = index out of range -/
def bailout (b : Bnb (WithTop Int)) : Option Bool :=
  if 0 < b.poolPos ∧ b.selection.isEmpty = false then
    match b.pool[b.poolPos]?, b.pool[b.poolPos - 1]? with
    | some (_, c), some (prevIndex, pc) =>
      some (!b.selection.isSelected prevIndex && decide (c.value = pc.value) && decide (c.weight = pc.weight))
    | _, _ => none
  else some false

/-- bnb.rs:238-282: the strategy closure; `s` is the selector the targets were computed from.  The scores are
integers with a top element standing for `i64::MAX`. -/
def bnbStrategy (s : Selector) : Decide (WithTop Int) := fun b =>
  let selectedAbs := b.selection.selectedAbs
  let selectedEff := b.selection.selectedEff
  if selectedAbs + b.remAbs < targetAbs s.opts ∨ selectedEff + b.remEff < s.effectiveTarget then
    some (.skipBoth, none)
  else if upperAbs s.opts < selectedAbs ∧ upperEff s < selectedEff then
    some (.skipBoth, none)
  else
    let selectedWaste := b.selection.selectedWaste
    if s.opts.longTerm < s.opts.targetFeerate ∧ b.best < (selectedWaste : WithTop Int) then
      some (.skipBoth, none)
    else if targetAbs s.opts ≤ selectedAbs ∧ s.effectiveTarget ≤ selectedEff then
      some (.skipBoth, some ((selectedWaste + b.selection.currentExcess : Int) : WithTop Int))
    else
      (bailout b).map fun skip => if skip then (.skipInclusion, none) else (.continue, none)

/-- bnb.rs:206-314 `coin_select_bnb` with `BnbLimit::Rounds(rounds)`.  `BnbLimit::Duration` is `take_while` on the
clock: it takes as many items as the clock allows, that is, it is `Rounds(k)` for some `k` that depends on the clock.
Outer `none` = panic. -/
def coinSelectBnb (sort : List (Nat × WV) → List (Nat × WV)) (rounds : Nat) (s : Selector) :
    Option (Option Selector) :=
  let pool := sort (usefulUnselected s)
  let bnb : Bnb (WithTop Int) := Bnb.new s pool ⊤
  if s.selectedAbs + bnb.remAbs < targetAbs s.opts ∨ s.selectedEff + bnb.remEff < s.effectiveTarget then
    some none
  else
    (BnbIter.take (bnbStrategy s) rounds { state := bnb, done := false }).map lastSome

end Verif.CoinSelect
