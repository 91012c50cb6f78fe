import Verif.Lemmas.TxGraph

set_option linter.unusedSectionVars false

namespace Verif

theorem OutPoint.le_def {a b : OutPoint} :
    a ≤ b ↔ (toLex (a.txid, a.vout) : Txid ×ₗ Vout) ≤ toLex (b.txid, b.vout) := Iff.rfl

theorem OutPoint.range_iff {o : OutPoint} {t : Txid} :
    ((⟨t, 0⟩ : OutPoint) ≤ o ∧ o ≤ ⟨t, Fin.last _⟩) ↔ o.txid = t := by
  rw [OutPoint.le_def, OutPoint.le_def, Prod.Lex.toLex_le_toLex, Prod.Lex.toLex_le_toLex]
  constructor
  · rintro ⟨h1 | h1, h2 | h2⟩
    · exact absurd h1 (not_lt.2 h2.le)
    · exact h2.1
    · exact h1.1.symm
    · exact h2.1
  · rintro rfl
    exact ⟨Or.inr ⟨rfl, Fin.zero_le _⟩, Or.inr ⟨rfl, Fin.le_last _⟩⟩

namespace TxGraph
open Verif.Spec
variable {T : Type} [AsTransaction T] {σ O : Type}

theorem mem_spendsRange {g : TxGraph T} {t : Txid} {o : OutPoint} {s : OSet Txid} :
    (o, s) ∈ g.spendsRange t ↔ o.txid = t ∧ g.spends.get o = some s := by
  unfold spendsRange
  rw [List.mem_filter]
  simp only [decide_eq_true_eq]
  rw [OutPoint.range_iff, OMap.mem_entries, and_comm]

theorem mem_children {g : TxGraph T} {so : SpendOrder} {t c : Txid} :
    c ∈ g.children so t ↔ ChildOf g t c := by
  unfold children ChildOf outspends
  rw [List.mem_flatMap]
  constructor
  · rintro ⟨⟨o, s⟩, h1, h2⟩
    rw [mem_spendsRange] at h1
    simp only [HashOrder.mem] at h2
    obtain ⟨ot, ov⟩ := o
    simp only at h1
    obtain ⟨rfl, h1⟩ := h1
    exact ⟨ov, by rw [h1]; exact OSet.mem_toList.1 h2⟩
  · rintro ⟨v, h⟩
    cases hs : g.spends.get ⟨t, v⟩ with
    | none => rw [hs] at h; cases h
    | some s =>
      rw [hs] at h
      refine ⟨(⟨t, v⟩, s), mem_spendsRange.2 ⟨rfl, hs⟩, ?_⟩
      simp only [HashOrder.mem]
      exact OSet.mem_toList.2 h

/-! ### termination -/

def weight (l : List (OutPoint × OSet Txid)) : Nat := (l.map (fun e => e.2.size)).sum

/-- spends of transactions not visited yet -/
def remaining (g : TxGraph T) (visited : OSet Txid) : Nat :=
  weight (g.spends.entries.filter (fun e => !visited.mem e.1.txid))

theorem weight_filter_split (l : List (OutPoint × OSet Txid)) (p : OutPoint × OSet Txid → Bool) :
    weight l = weight (l.filter p) + weight (l.filter (fun e => !p e)) := by
  induction l with
  | nil => rfl
  | cons a l ih =>
    unfold weight at *
    by_cases h : p a = true
    · simp only [h, List.filter_cons, if_true, List.map_cons, List.sum_cons, Bool.not_true, Bool.false_eq_true, if_false]
      omega
    · simp only [h, List.filter_cons, if_true, List.map_cons, List.sum_cons, Bool.false_eq_true, if_false]
      simp only [Bool.not_eq_true] at h
      simp only [h, Bool.not_false, if_true, List.map_cons, List.sum_cons]
      omega

theorem children_length (g : TxGraph T) (so : SpendOrder) (t : Txid) :
    (g.children so t).length = weight (g.spendsRange t) := by
  unfold children weight
  rw [List.length_flatMap]
  congr 1
  apply List.map_congr_left
  intro e _
  rw [((so e.1).isPerm _).length_eq]
  unfold OSet.toList OMap.keys OMap.size
  rw [List.length_map]

theorem remaining_add (g : TxGraph T) (so : SpendOrder) (visited : OSet Txid) (t : Txid) (h : visited.mem t = false) :
    remaining g (visited.add t) + (g.children so t).length = remaining g visited := by
  unfold remaining
  rw [weight_filter_split (g.spends.entries.filter (fun e => !visited.mem e.1.txid)) (fun e => decide (e.1.txid ≠ t))]
  rw [children_length]
  congr 1
  · congr 1
    rw [List.filter_filter]
    apply List.filter_congr
    intro e _
    rw [OSet.mem_add]
    by_cases he : e.1.txid = t <;> simp [he]
  · congr 1
    unfold spendsRange
    rw [List.filter_filter]
    apply List.filter_congr
    intro e _
    simp only [OutPoint.range_iff]
    by_cases he : e.1.txid = t
    · simp [he, h]
    · simp [he]

def pot (g : TxGraph T) (w : Walk σ O) : Nat := w.stack.length + remaining g w.visited

theorem walkStep_pot {g : TxGraph T} {so : SpendOrder} {f : σ → Nat → Txid → σ × Option O} {w w' : Walk σ O}
    (h : g.walkStep so f w = some w') : pot g w' < pot g w := by
  unfold walkStep at h
  cases hs : w.stack with
  | nil => rw [hs] at h; cases h
  | cons e rest =>
    obtain ⟨d, t⟩ := e
    rw [hs] at h
    simp only at h
    split at h
    · cases h
      unfold pot; simp [hs]
    · next hv =>
      have hv' : w.visited.mem t = false := by simpa using hv
      have hr := remaining_add g so w.visited t hv'
      cases h
      unfold pot
      simp only [hs, List.length_cons]
      unfold stackAfter
      cases (f w.state d t).2 with
      | none => simp only; omega
      | some o =>
        simp only [populateStack, List.length_append, List.length_reverse, List.length_map]
        omega

theorem walkStep_none {g : TxGraph T} {so : SpendOrder} {f : σ → Nat → Txid → σ × Option O} {w : Walk σ O} :
    g.walkStep so f w = none ↔ w.stack = [] := by
  unfold walkStep
  cases hs : w.stack with
  | nil => simp
  | cons e rest =>
    simp only [reduceCtorEq, iff_false]
    split <;> simp

theorem walkN_done {g : TxGraph T} {so : SpendOrder} {f : σ → Nat → Txid → σ × Option O} (n : Nat) (w : Walk σ O)
    (h : pot g w ≤ n) : (g.walkN so f n w).stack = [] := by
  induction n generalizing w with
  | zero =>
    unfold walkN
    have : w.stack.length = 0 := by unfold pot at h; omega
    exact List.length_eq_zero_iff.1 this
  | succ n ih =>
    unfold walkN
    cases hs : g.walkStep so f w with
    | none => exact walkStep_none.1 hs
    | some w' =>
      have := walkStep_pot hs
      exact ih w' (by omega)

theorem remaining_le (g : TxGraph T) (v : OSet Txid) : remaining g v ≤ weight g.spends.entries := by
  unfold remaining
  rw [weight_filter_split g.spends.entries (fun e => !v.mem e.1.txid)]
  omega

theorem pot_le_fuel (g : TxGraph T) (w : Walk σ O) : pot g w ≤ g.walkFuel w := by
  unfold pot walkFuel
  have := remaining_le g w.visited
  unfold weight at this
  omega

/-! ### invariant of the walk -/

/-- accepted by the closure -/
def Walked (w : Walk σ O) (t : Txid) : Prop := ∃ d o, (d, t, some o) ∈ w.calls

/-- the calls, oldest first, are a run of the stateful closure from `s` to `s'` -/
inductive TraceFrom (f : σ → Nat → Txid → σ × Option O) (s : σ) : List (Nat × Txid × Option O) → σ → Prop where
  | nil : TraceFrom f s [] s
  | cons {l s' d t} : TraceFrom f s l s' → TraceFrom f s ((d, t, (f s' d t).2) :: l) (f s' d t).1

theorem pathLen_mono {g : TxGraph T} {start acc acc' : Txid → Prop} {d0 d : Nat} {t : Txid} (h : ∀ t, acc t → acc' t)
    (hp : PathLen g start acc d0 d t) : PathLen g start acc' d0 d t := by
  induction hp with
  | start hs => exact .start hs
  | step _ ha hc ih => exact .step ih (h _ ha) hc

structure WalkInv (g : TxGraph T) (f : σ → Nat → Txid → σ × Option O) (start : Txid → Prop) (d0 : Nat) (s0 : σ)
    (w : Walk σ O) : Prop where
  visited : ∀ t, w.visited.mem t = true ↔ ∃ d r, (d, t, r) ∈ w.calls
  nodup : (w.calls.map (fun c => c.2.1)).Nodup
  stackOk : ∀ d t, (d, t) ∈ w.stack → PathLen g start (Walked w) d0 d t
  callsOk : ∀ d t r, (d, t, r) ∈ w.calls → PathLen g start (Walked w) d0 d t
  startDone : ∀ t, start t → w.visited.mem t = true ∨ ∃ d, (d, t) ∈ w.stack
  childDone : ∀ p c, Walked w p → ChildOf g p c → w.visited.mem c = true ∨ ∃ d, (d, c) ∈ w.stack
  trace : TraceFrom f s0 w.calls w.state

theorem walkStep_inv {g : TxGraph T} {so : SpendOrder} {f : σ → Nat → Txid → σ × Option O} {start : Txid → Prop}
    {d0 : Nat} {s0 : σ} {w w' : Walk σ O} (hi : WalkInv g f start d0 s0 w) (h : g.walkStep so f w = some w') :
    WalkInv g f start d0 s0 w' := by
  unfold walkStep at h
  cases hs : w.stack with
  | nil => rw [hs] at h; cases h
  | cons e rest =>
    obtain ⟨d, t⟩ := e
    rw [hs] at h
    simp only at h
    have hpath : PathLen g start (Walked w) d0 d t := hi.stackOk d t (by rw [hs]; simp)
    split at h
    · next hv =>
      cases h
      refine ⟨hi.visited, hi.nodup, ?_, hi.callsOk, ?_, ?_, hi.trace⟩
      · intro d' t' hm; exact hi.stackOk d' t' (by rw [hs]; simp [hm])
      · intro t' ht'
        rcases hi.startDone t' ht' with h | ⟨d', h⟩
        · exact Or.inl h
        · rw [hs] at h
          simp only [List.mem_cons, Prod.mk.injEq] at h
          rcases h with ⟨_, rfl⟩ | h
          · exact Or.inl hv
          · exact Or.inr ⟨d', h⟩
      · intro p c hp hc
        rcases hi.childDone p c hp hc with h | ⟨d', h⟩
        · exact Or.inl h
        · rw [hs] at h
          simp only [List.mem_cons, Prod.mk.injEq] at h
          rcases h with ⟨_, rfl⟩ | h
          · exact Or.inl hv
          · exact Or.inr ⟨d', h⟩
    · next hv =>
      have hv' : w.visited.mem t = false := by simpa using hv
      have hnew : ∀ d r, (d, t, r) ∉ w.calls := by
        intro d r hm
        have := (hi.visited t).2 ⟨d, r, hm⟩
        rw [hv'] at this; cases this
      cases h
      generalize hst : g.stackAfter so d t rest (f w.state d t).2 = st
      have hmono : ∀ x, Walked w x → ∃ d' o, (d', x, some o) ∈ (d, t, (f w.state d t).2) :: w.calls := by
        rintro x ⟨d', o, hx⟩; exact ⟨d', o, List.mem_cons_of_mem _ hx⟩
      have hrest : ∀ e, e ∈ rest → e ∈ st := by
        intro e he
        rw [← hst]; unfold stackAfter
        cases (f w.state d t).2 with
        | none => exact he
        | some o => simp only [populateStack]; exact List.mem_append_right _ he
      have hpop : ∀ c, (f w.state d t).2 ≠ none → ChildOf g t c → (d + 1, c) ∈ st := by
        intro c hne hc
        rw [← hst]; unfold stackAfter
        cases hr : (f w.state d t).2 with
        | none => exact absurd hr hne
        | some o =>
          simp only [populateStack]
          apply List.mem_append_left
          simp only [List.mem_reverse, List.mem_map, Prod.mk.injEq, true_and, exists_eq_right]
          exact mem_children.2 hc
      have hstk : ∀ d' t', (d', t') ∈ st → (d', t') ∈ rest ∨
          ((f w.state d t).2 ≠ none ∧ d' = d + 1 ∧ ChildOf g t t') := by
        intro d' t' hm
        rw [← hst] at hm; unfold stackAfter at hm
        cases hr : (f w.state d t).2 with
        | none => rw [hr] at hm; exact Or.inl hm
        | some o =>
          rw [hr] at hm
          simp only [populateStack, List.mem_append, List.mem_reverse, List.mem_map, Prod.mk.injEq] at hm
          rcases hm with ⟨c, hc, rfl, rfl⟩ | hm
          · exact Or.inr ⟨by simp, rfl, mem_children.1 hc⟩
          · exact Or.inl hm
      refine ⟨?_, ?_, ?_, ?_, ?_, ?_, ?_⟩
      · intro t'
        simp only [OSet.mem_add, Bool.or_eq_true, decide_eq_true_eq, List.mem_cons, Prod.mk.injEq]
        rw [hi.visited]
        constructor
        · rintro (rfl | ⟨d', r, h⟩)
          · exact ⟨d, _, Or.inl ⟨rfl, rfl, rfl⟩⟩
          · exact ⟨d', r, Or.inr h⟩
        · rintro ⟨d', r, ⟨_, h, _⟩ | h⟩
          · exact Or.inl h
          · exact Or.inr ⟨d', r, h⟩
      · simp only [List.map_cons, List.nodup_cons]
        refine ⟨?_, hi.nodup⟩
        intro hm
        obtain ⟨⟨d', t', r⟩, h1, h2⟩ := List.mem_map.1 hm
        simp only at h2; subst h2
        exact hnew d' r h1
      · intro d' t' hm
        rcases hstk d' t' hm with h | ⟨hne, rfl, hc⟩
        · exact pathLen_mono hmono (hi.stackOk d' t' (by rw [hs]; simp [h]))
        · refine .step (pathLen_mono hmono hpath) ?_ hc
          cases hr : (f w.state d t).2 with
          | none => exact absurd hr hne
          | some o => exact ⟨d, o, List.mem_cons.2 (Or.inl (by simp only [hr]))⟩
      · intro d' t' r hm
        simp only [List.mem_cons, Prod.mk.injEq] at hm
        rcases hm with ⟨rfl, rfl, _⟩ | hm
        · exact pathLen_mono hmono hpath
        · exact pathLen_mono hmono (hi.callsOk d' t' r hm)
      · intro t' ht'
        simp only [OSet.mem_add, Bool.or_eq_true, decide_eq_true_eq]
        rcases hi.startDone t' ht' with h | ⟨d', h⟩
        · exact Or.inl (Or.inr h)
        · rw [hs] at h
          simp only [List.mem_cons, Prod.mk.injEq] at h
          rcases h with ⟨_, rfl⟩ | h
          · exact Or.inl (Or.inl rfl)
          · exact Or.inr ⟨d', hrest _ h⟩
      · rintro p c ⟨d', o, hp⟩ hc
        simp only [OSet.mem_add, Bool.or_eq_true, decide_eq_true_eq]
        simp only [List.mem_cons, Prod.mk.injEq] at hp
        rcases hp with ⟨_, rfl, ho⟩ | hp
        · exact Or.inr ⟨d + 1, hpop c (by rw [← ho]; simp) hc⟩
        · rcases hi.childDone p c ⟨d', o, hp⟩ hc with h | ⟨d', h⟩
          · exact Or.inl (Or.inr h)
          · rw [hs] at h
            simp only [List.mem_cons, Prod.mk.injEq] at h
            rcases h with ⟨_, rfl⟩ | h
            · exact Or.inl (Or.inl rfl)
            · exact Or.inr ⟨d', hrest _ h⟩
      · exact TraceFrom.cons hi.trace

theorem walkN_inv {g : TxGraph T} {so : SpendOrder} {f : σ → Nat → Txid → σ × Option O} {start : Txid → Prop}
    {d0 : Nat} {s0 : σ} (n : Nat) {w : Walk σ O} (hi : WalkInv g f start d0 s0 w) :
    WalkInv g f start d0 s0 (g.walkN so f n w) := by
  induction n generalizing w with
  | zero => exact hi
  | succ n ih =>
    unfold walkN
    cases hs : g.walkStep so f w with
    | none => exact hi
    | some w' => exact ih (walkStep_inv hi hs)

theorem pathLen_reach {g : TxGraph T} {start acc : Txid → Prop} {d0 d : Nat} {t : Txid}
    (hp : PathLen g start acc d0 d t) : ReachVia g start acc t := by
  induction hp with
  | start hs => exact .start hs
  | step _ ha hc ih => exact .step ih ha hc

/-- once the stack is empty the calls are exactly the reachable transactions -/
theorem inv_exact {g : TxGraph T} {f : σ → Nat → Txid → σ × Option O} {start : Txid → Prop}
    {d0 : Nat} {s0 : σ} {w : Walk σ O} (hi : WalkInv g f start d0 s0 w) (hs : w.stack = []) (t : Txid) :
    (∃ d r, (d, t, r) ∈ w.calls) ↔ ReachVia g start (Walked w) t := by
  constructor
  · rintro ⟨d, r, h⟩; exact pathLen_reach (hi.callsOk d t r h)
  · intro h
    rw [← hi.visited]
    cases h with
    | start h =>
      rcases hi.startDone t h with h | ⟨d, h⟩
      · exact h
      · rw [hs] at h; cases h
    | step _ ha hc =>
      rcases hi.childDone _ t ha hc with h | ⟨d, h⟩
      · exact h
      · rw [hs] at h; cases h

theorem walkDescendants_inv (g : TxGraph T) (so : SpendOrder) (f : σ → Nat → Txid → σ × Option O) (txid : Txid) (s : σ) :
    WalkInv g f (ChildOf g txid) 1 s (g.walkDescendants so txid s : Walk σ O) := by
  refine ⟨?_, ?_, ?_, ?_, ?_, ?_, ?_⟩
  · intro t; simp [walkDescendants]
  · simp [walkDescendants]
  · intro d t hm
    simp only [walkDescendants, populateStack, List.append_nil, List.mem_reverse, List.mem_map, Prod.mk.injEq] at hm
    obtain ⟨c, hc, rfl, rfl⟩ := hm
    exact .start (mem_children.1 hc)
  · intro d t r hm; cases hm
  · intro t ht
    right
    refine ⟨1, ?_⟩
    simp only [walkDescendants, populateStack, List.append_nil, List.mem_reverse, List.mem_map, Prod.mk.injEq]
    exact ⟨t, mem_children.2 ht, by simp⟩
  · rintro p c ⟨d, o, h⟩; cases h
  · exact .nil

theorem walkFrom_inv (g : TxGraph T) (f : σ → Nat → Txid → σ × Option O) (l : List Txid) (s : σ) :
    WalkInv g f (· ∈ l) 0 s (walkFrom l s : Walk σ O) := by
  refine ⟨?_, ?_, ?_, ?_, ?_, ?_, ?_⟩
  · intro t; simp [walkFrom]
  · simp [walkFrom]
  · intro d t hm
    simp only [walkFrom, List.mem_reverse, List.mem_map, Prod.mk.injEq] at hm
    obtain ⟨c, hc, rfl, rfl⟩ := hm
    exact .start hc
  · intro d t r hm; cases hm
  · intro t ht
    right
    refine ⟨0, ?_⟩
    simp only [walkFrom, List.mem_reverse, List.mem_map, Prod.mk.injEq]
    exact ⟨t, ht, by simp⟩
  · rintro p c ⟨d, o, h⟩; cases h
  · exact .nil

/-- a closure without state that looks at the txid only -/
def pureWalk (f : Txid → Option O) : Unit → Nat → Txid → Unit × Option O := fun _ _ t => ((), f t)

theorem pureWalk_calls {f : Txid → Option O} {l : List (Nat × Txid × Option O)} {s : Unit}
    (h : TraceFrom (pureWalk f) () l s) {dep : Nat} {t : Txid} {r : Option O} (hm : (dep, t, r) ∈ l) : r = f t := by
  induction h with
  | nil => cases hm
  | cons _ ih =>
    rcases List.mem_cons.1 hm with h | h
    · cases h; rfl
    · exact ih h

theorem reachVia_congr {g : TxGraph T} {start acc acc' : Txid → Prop} {t : Txid}
    (h : ∀ t, ReachVia g start acc t → acc t → acc' t) (hr : ReachVia g start acc t) : ReachVia g start acc' t := by
  induction hr with
  | start hs => exact .start hs
  | step hp ha hc ih => exact .step ih (h _ hp ha) hc

theorem pure_exact {g : TxGraph T} {f : Txid → Option O} {start : Txid → Prop} {d0 : Nat} {w : Walk Unit O}
    (hi : WalkInv g (pureWalk f) start d0 () w) (hs : w.stack = []) (t : Txid) :
    (∃ dep r, (dep, t, r) ∈ w.calls) ↔ ReachVia g start (fun t => (f t).isSome = true) t := by
  rw [inv_exact hi hs]
  constructor
  · apply reachVia_congr
    rintro t _ ⟨dep, o, h⟩
    have := pureWalk_calls hi.trace h
    rw [← this]; rfl
  · intro h
    induction h with
    | start h => exact .start h
    | step _ ha hc ih =>
      refine .step ih ?_ hc
      obtain ⟨dep, r, h⟩ := (inv_exact hi hs _).2 ih
      have := pureWalk_calls hi.trace h
      rw [← this] at ha
      cases r with
      | none => cases ha
      | some o => exact ⟨dep, o, h⟩

theorem mem_directConflicts {g : TxGraph T} (hw : SpendsOk g) {so : SpendOrder} {tx : Tx} {vin : Nat} {t : Txid} :
    (vin, t) ∈ g.directConflictsOfTx so tx ↔ ConflictsAt g tx vin t := by
  unfold directConflictsOfTx ConflictsAt
  simp only [List.mem_filter, List.mem_flatMap, List.mem_filterMap, decide_eq_true_eq, Option.map_eq_some_iff,
    Prod.exists, List.mem_map, Prod.mk.injEq, HashOrder.mem]
  constructor
  · rintro ⟨⟨vin', o, s, ⟨o', i, hm, s', hs, rfl, rfl, rfl⟩, t', ht, rfl, rfl⟩, hne⟩
    refine ⟨o', ?_, ?_, hne⟩
    · rw [List.mem_zipIdx_iff_getElem?] at hm; exact hm
    · rw [← hw.1]; unfold outspends; rw [hs]; exact OSet.mem_toList.1 ht
  · rintro ⟨o, ho, hsp, hne⟩
    rw [← hw.1] at hsp
    unfold outspends at hsp
    cases hs : g.spends.get o with
    | none => rw [hs] at hsp; cases hsp
    | some s =>
      rw [hs] at hsp
      refine ⟨⟨vin, o, s, ⟨o, vin, ?_, s, hs, rfl, rfl, rfl⟩, t, OSet.mem_toList.2 hsp, rfl, rfl⟩, hne⟩
      rw [List.mem_zipIdx_iff_getElem?]; exact ho

end TxGraph
end Verif
